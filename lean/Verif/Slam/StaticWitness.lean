import Verif.Slam.StaticProps
import Verif.Slam.BatchWitness
/-!
Concrete cases for C73, C74 and C72: three equal frames of 2×2 pixels in front of a wall, and three equal frames in which a single pixel has depth.
-/
namespace Verif.Slam
open Verif Pcs
set_option maxRecDepth 100000

noncomputable def rgbS : Rgbd.T5 ℝ := ⟨⟨1, 3, 2, 2, 3⟩, fun _ _ h w c => h + w + c⟩
/-- A wall two units away, seen by the pixels `q`. -/
noncomputable def depthS (q : Nat → Nat → Bool) : Rgbd.T5 ℝ := ⟨⟨1, 3, 2, 2, 1⟩, fun _ _ h w _ => if q h w then 2 else 0⟩
noncomputable def poseS : Rgbd.TM ℝ := ⟨1, 3, fun _ _ => turnR⟩
noncomputable def seqS (q : Nat → Nat → Bool) : Rgbd.Obj ℝ :=
  ⟨false, rgbS, depthS q, KR, some poseS, none, none, none, none, none, none, rgbS.sh, none, 1, 3, 2, 2⟩
noncomputable def inS (q : Nat → Nat → Bool) : Rgbd.In ℝ := Rgbd.inputsOf rgbS (depthS q) KR (some poseS) false none
theorem seqS_new (q : Nat → Nat → Bool) : Rgbd.new rgbS (depthS q) KR (some poseS) false none = .ok (seqS q) := rfl
noncomputable def paramsS : Params := ⟨1, 20, 1 / 10 ^ 8, none, 2, 1, 1, 200⟩
/-- `PointFusion(odom=…)` with the default thresholds. -/
noncomputable def sysS (o : Odom ℝ) : Sys ℝ := ⟨o, 1, .fusion (1 / 20) (Real.cos (20 * Real.pi / 180)), Rgbd.nrmR, Fusion.getAlpha (6 / 10) (1 / 10 ^ 7), 1 / 10 ^ 6⟩

theorem sysS_made {odom : String} {o : Odom ℝ} (h : odomOf Icp.bruteNN (1 / 10 ^ 6) paramsS odom = .ok o) :
    pointFusion Icp.bruteNN (1 / 10 ^ 6) (1 / 10 ^ 6) Rgbd.nrmR (fun sigma => Fusion.getAlpha sigma (1 / 10 ^ 7)) paramsS odom (1 / 20) 20 (6 / 10) = .ok (sysS o) := by
  rw [pointFusion, h]; rfl

theorem depthS_at (q : Nat → Nat → Bool) (b t h w : Nat) : (inS q).depth b t h w = if q h w then 2 else 0 := rfl

theorem mem_S {q : Nat → Nat → Bool} {b t : Nat} {x : Nat × Nat} : x ∈ depthPixels (inS q) b t ↔ x.1 < 2 ∧ x.2 < 2 ∧ q x.1 x.2 = true := by
  rw [mem_depthPixels]
  have h1 : (inS q).H = 2 := rfl
  have h2 : (inS q).W = 2 := rfl
  rw [h1, h2, depthS_at]
  cases q x.1 x.2 <;> simp

theorem turnR_rigid : turnR.Rigid := world_hypotheses.2.2.2.2.2.2.1

/-- The hypotheses of C73 and C74 are met for all three odometries, a camera that is not at the origin, and every depth image with a measurement at
pixel (0, 0). -/
theorem still_hypotheses {q : Nat → Nat → Bool} (hq : q 0 0 = true) {odom : String} (hodom : odom ∈ ["gt", "icp", "gradicp"]) :
    ∃ o, Sensible Icp.bruteNN (1 / 10 ^ 6) (1 / 10 ^ 6) paramsS odom (sysS o) ∧ (odom = "gt" ↔ o = .gt) ∧ SmallSeq (sysS o) (inS q) ∧
      SeqOk (sysS o) (seqS q) (inS q) ∧ Still (sysS o) (seqS q) (inS q) ∧ (inS q).L = 3 ∧
      pointFusion Icp.bruteNN (1 / 10 ^ 6) (1 / 10 ^ 6) Rgbd.nrmR (fun sigma => Fusion.getAlpha sigma (1 / 10 ^ 7)) paramsS odom (1 / 20) 20 (6 / 10) = .ok (sysS o) := by
  obtain ⟨S, hS⟩ := ((odometry_names Icp.bruteNN (1 / 10 ^ 6) (1 / 10 ^ 6) Rgbd.nrmR (fun _ => 1) (fun _ _ => 1) paramsS odom 1 1 1).2 hodom).1
  rw [icpSlam] at hS
  cases ho : odomOf Icp.bruteNN (1 / 10 ^ 6) paramsS odom with
  | error e => rw [ho] at hS; cases hS
  | ok o =>
    refine ⟨o, .inr ⟨_, _, _, by norm_num, by norm_num, by norm_num, sysS_made ho⟩, ?_, .inr ⟨?_, ?_, ?_, ?_⟩,
      seqOk_of_hist (S := sysS o) (Rgbd.Hist.new (seqS_new q)) (.inl rfl) ?_ ?_ ?_, ⟨⟨fun _ _ _ _ => rfl, fun _ _ _ _ => rfl, fun _ _ _ _ => rfl⟩,
        fun b _ => turnR_rigid, fun _ => ⟨poseS, rfl, fun _ _ _ _ => rfl⟩, fun b hb x hx => ?_, fun b hb => ⟨(0, 0), mem_S.2 ⟨by norm_num, by norm_num, hq⟩, ?_, ?_⟩⟩,
      rfl, sysS_made ho⟩
    · rcases odom_cases ho with ⟨rfl, rfl⟩ | ⟨rfl, rfl⟩ | ⟨rfl, rfl⟩
      · simp
      · exact ⟨fun h => absurd h (by decide), fun h => by cases h⟩
      · exact ⟨fun h => absurd h (by decide), fun h => by cases h⟩
    · show 1 ≤ _; norm_num
    · show 2 ≤ _; norm_num
    · show 2 ≤ _; norm_num
    · show 3 * (2 * 2) ≤ _; norm_num
    · show 0 < 1; norm_num
    · show 2 ≤ 2; norm_num
    · show 2 ≤ 2; norm_num
    · obtain ⟨h1, h2, h3⟩ := mem_S.1 hx
      refine reprojects_pinhole (fx := 2) (fy := 2) (cx := 1) (cy := 1) h2 h1 rfl (Rgbd.default_pixels (seqS_new q) b 0 x.1 x.2 h1 h2) (by rw [depthS_at, h3]; norm_num) ?_ ?_ ?_ ?_ ?_
      · show (0 : ℝ) ≤ 1 / 10 ^ 6; norm_num
      · norm_num
      · norm_num
      · have : |((x.2 : Nat) : ℝ) - 1| ≤ 1 := by
          have a1 : ((x.2 : Nat) : ℝ) < 2 := by exact_mod_cast h2
          rw [abs_le]; constructor <;> linarith [Nat.cast_nonneg (α := ℝ) x.2]
        show (1 / 10 ^ 6 : ℝ) * _ < _
        linarith
      · have : |((x.1 : Nat) : ℝ) - 1| ≤ 1 := by
          have a1 : ((x.1 : Nat) : ℝ) < 2 := by exact_mod_cast h1
          rw [abs_le]; constructor <;> linarith [Nat.cast_nonneg (α := ℝ) x.1]
        show (1 / 10 ^ 6 : ℝ) * _ < _
        linarith
    · exact dvd_zero _
    · exact dvd_zero _

theorem vertexS {q : Nat → Nat → Bool} {y x : Nat} (hy : y < 2) (hx : x < 2) (hq : q y x = true) (o : Odom ℝ) :
    Rgbd.vertexAt (sysS o).eps (inS q) 0 0 y x = ⟨2 * ((x - 1) / (2 + 1 / 10 ^ 6)), 2 * ((y - 1) / (2 + 1 / 10 ^ 6)), 2⟩ := by
  rw [Rgbd.vertexAt, depthS_at, hq, if_pos rfl, if_pos (by norm_num),
    show (inS q).pix 0 0 y x = ⟨(x : ℝ), (y : ℝ), 1⟩ from Rgbd.default_pixels (seqS_new q) 0 0 y x hy hx]
  have e : (inS q).K 0 = ⟨⟨⟨2, 0, 1⟩, ⟨0, 2, 1⟩, ⟨0, 0, 1⟩⟩, .zero, .zero, 1⟩ := rfl
  rw [e]
  simp [Rgbd.backproj, sysS]

theorem wall_cross {x : Nat × Nat} (x1 : x.1 < 2) (x2 : x.2 < 2) (o : Odom ℝ) :
    (Rgbd.tanW (sysS o).eps (inS fun _ _ => true) 0 0 x.1 x.2).cross (Rgbd.tanH (sysS o).eps (inS fun _ _ => true) 0 0 x.1 x.2) ≠ V3.zero := by
  have f2 : ∀ k < 2, Rgbd.fwd 2 k = 0 := by intro k hk; unfold Rgbd.fwd; split_ifs <;> omega
  have eW : Rgbd.tanW (sysS o).eps (inS fun _ _ => true) 0 0 x.1 x.2 = ⟨2 * (1 / (2 + 1 / 10 ^ 6)), 0, 0⟩ := by
    rw [Rgbd.tanW, show (inS fun _ _ => true).W = 2 from rfl, f2 _ x2, vertexS x1 (by norm_num) rfl, vertexS x1 (by norm_num) rfl]
    ext <;> simp [V3.sub] <;> ring
  have eH : Rgbd.tanH (sysS o).eps (inS fun _ _ => true) 0 0 x.1 x.2 = ⟨0, 2 * (1 / (2 + 1 / 10 ^ 6)), 0⟩ := by
    rw [Rgbd.tanH, show (inS fun _ _ => true).H = 2 from rfl, f2 _ x1, vertexS (by norm_num) x2 rfl, vertexS (by norm_num) x2 rfl]
    ext <;> simp [V3.sub] <;> ring
  rw [eW, eH]
  intro h
  have := congrArg V3.z h
  simp [V3.cross, V3.zero] at this
  norm_num at this

/-- All four pixels see the wall: every pixel has a normal, so after three frames the map has four points, each with three times the weight of its pixel. -/
theorem wall_map {odom : String} (hodom : odom ∈ ["gt", "icp", "gradicp"]) :
    ∃ o m R, (odom = "gt" ↔ o = Odom.gt) ∧ forward (sysS o) (seqS fun _ _ => true) = .ok (m, R) ∧ (∀ t < 3, R.at' 0 t = turnR) ∧
      (∃ P, (getList .points m).1 = some P ∧ P.map (fun t => t.rows.length) = [4]) ∧
      (getList .features m).1 = some [⟨[(0, 0), (0, 1), (1, 0), (1, 1)].map fun x : Nat × Nat =>
        [3 * gaussWeight (6 / 10) (Rgbd.vertexAt (1 / 10 ^ 6) (inS fun _ _ => true) 0 0 x.1 x.2)], 1⟩] := by
  obtain ⟨o, h1, h2, h3, h4, h5, _, h6⟩ := still_hypotheses (q := fun _ _ => true) rfl hodom
  have hd : depthPixels (inS fun _ _ => true) 0 0 = [(0, 0), (0, 1), (1, 0), (1, 1)] := by
    rw [depthPixels]
    have e1 : (inS fun _ _ => true).H = 2 := rfl
    have e2 : (inS fun _ _ => true).W = 2 := rfl
    rw [e1, e2]
    simp [depthS_at, List.range_succ]
  have hn : ∀ x ∈ depthPixels (inS fun _ _ => true) 0 0, Rgbd.normalAt (sysS o).nrm (sysS o).eps (inS fun _ _ => true) 0 0 x.1 x.2 ≠ V3.zero := by
    intro x hx h0
    obtain ⟨x1, x2, _⟩ := mem_S.1 hx
    rw [Rgbd.normalAt, if_pos (by rw [depthS_at]; norm_num)] at h0
    have hne := wall_cross x1 x2 o
    rcases (Rgbd.normal_unit_orthogonal (nrm := (sysS o).nrm) Rgbd.nrmR_isNorm _ _).1 with ⟨_, hc⟩ | hc
    · exact hne hc
    · rw [h0] at hc; simp [V3.dot, V3.zero] at hc
  obtain ⟨m, R, e, hp, hc⟩ := still_pointfusion_map Icp.bruteNN_nearest (by norm_num) h6 (by norm_num) (by norm_num) (by show (1 : Int) ≤ 20; norm_num)
    (by show (0 : ℝ) < 1 / 10 ^ 8; norm_num) (by show (1 : ℝ) < 2; norm_num) (.inr (by show (0 : Int) < 1; norm_num)) (by show 0 < 3; norm_num) h3 h4 h5
  obtain ⟨m', R', e', _, _, hR⟩ := still_camera_stays Icp.bruteNN_nearest (by norm_num) h1 (by show (1 : Int) ≤ 20; norm_num)
    (by show (0 : ℝ) < 1 / 10 ^ 8; norm_num) (by show (1 : ℝ) < 2; norm_num) (.inr (by show (0 : Int) < 1; norm_num)) h3 h4 h5
  rw [e] at e'; cases e'
  have hB : (inS fun _ _ => true).B = 1 := rfl
  refine ⟨o, m, R, h2, e, fun t ht => hR 0 (by rw [hB]; norm_num) t ht, ⟨_, hp .points (by simp), ?_⟩, ?_⟩
  · simp [hB, still_pixels_once hn, hd]
  · rw [hc, hB]
    simp only [List.range_one, List.map_cons, List.map_nil, still_pixels_once hn, hd]
    have hz : ∀ y x : Nat, y < 2 → x < 2 → (if Rgbd.normalAt (sysS o).nrm (sysS o).eps (inS fun _ _ => true) 0 0 y x = V3.zero then (1 : ℝ) else ((inS fun _ _ => true).L : ℝ)) = 3 := by
      intro y x hy hx
      rw [if_neg (hn (y, x) (mem_S.2 ⟨hy, hx, rfl⟩))]
      show ((3 : Nat) : ℝ) = 3
      norm_num
    rw [hz 0 0 (by norm_num) (by norm_num), hz 0 1 (by norm_num) (by norm_num), hz 1 0 (by norm_num) (by norm_num), hz 1 1 (by norm_num) (by norm_num)]
    rfl

/-- Only pixel (0, 0) has depth: it has no normal and is stored three times. -/
theorem lone_pixel_map {odom : String} (hodom : odom ∈ ["gt", "icp", "gradicp"]) :
    ∃ o m R P, (odom = "gt" ↔ o = Odom.gt) ∧ forward (sysS o) (seqS fun y x => y == 0 && x == 0) = .ok (m, R) ∧ (∀ t < 3, R.at' 0 t = turnR) ∧
      (getList .points m).1 = some P ∧ P.map (fun t => t.rows.length) = [3] := by
  obtain ⟨o, h1, h2, h3, h4, h5, _, h6⟩ := still_hypotheses (q := fun y x => y == 0 && x == 0) rfl hodom
  obtain ⟨m, R, e, hp, hc⟩ := still_pointfusion_map Icp.bruteNN_nearest (by norm_num) h6 (by norm_num) (by norm_num) (by show (1 : Int) ≤ 20; norm_num)
    (by show (0 : ℝ) < 1 / 10 ^ 8; norm_num) (by show (1 : ℝ) < 2; norm_num) (.inr (by show (0 : Int) < 1; norm_num)) (by show 0 < 3; norm_num) h3 h4 h5
  obtain ⟨m', R', e', _, _, hR⟩ := still_camera_stays Icp.bruteNN_nearest (by norm_num) h1 (by show (1 : Int) ≤ 20; norm_num)
    (by show (0 : ℝ) < 1 / 10 ^ 8; norm_num) (by show (1 : ℝ) < 2; norm_num) (.inr (by show (0 : Int) < 1; norm_num)) h3 h4 h5
  rw [e] at e'; cases e'
  have hB : (inS fun y x => y == 0 && x == 0).B = 1 := rfl
  have hd : depthPixels (inS fun y x => y == 0 && x == 0) 0 0 = [(0, 0)] := by
    rw [depthPixels]
    have e1 : (inS fun y x => y == 0 && x == 0).H = 2 := rfl
    have e2 : (inS fun y x => y == 0 && x == 0).W = 2 := rfl
    rw [e1, e2]
    simp [depthS_at, List.range_succ]
  have hz : Rgbd.normalAt (sysS o).nrm (sysS o).eps (inS fun y x => y == 0 && x == 0) 0 0 0 0 = V3.zero := by
    have hv : ∀ y x, (y == 0 && x == 0) = false → Rgbd.vertexAt (sysS o).eps (inS fun y x => y == 0 && x == 0) 0 0 y x = V3.zero := by
      intro y x h
      rw [Rgbd.vertexAt, depthS_at, h]; simp
    rw [Rgbd.normalAt, Rgbd.tanW, Rgbd.tanH]
    have eW : (inS fun y x => y == 0 && x == 0).W = 2 := rfl
    have eH : (inS fun y x => y == 0 && x == 0).H = 2 := rfl
    rw [eW, eH, show Rgbd.fwd 2 0 = 0 from rfl, hv 0 (0 + 1) rfl, hv (0 + 1) 0 rfl]
    generalize Rgbd.vertexAt (sysS o).eps (inS fun y x => y == 0 && x == 0) 0 0 0 0 = v
    have hc : (V3.zero.sub v).cross (V3.zero.sub v) = V3.zero := by ext <;> simp [V3.cross, V3.sub, V3.zero] <;> ring
    rw [hc]
    have h0 : (sysS o).nrm V3.zero = 0 := nrm_zero Rgbd.nrmR_isNorm
    rw [Rgbd.unit, if_pos h0, ite_self]
  have hflat : flatPixels (sysS o) (inS fun y x => y == 0 && x == 0) 0 = [(0, 0)] := by
    rw [flatPixels, hd, List.filter_cons, if_pos (by simpa using hz), List.filter_nil]
  refine ⟨o, m, R, _, h2, e, fun t ht => hR 0 (by rw [hB]; norm_num) t ht, hp .points (by simp), ?_⟩
  have hL : (inS fun y x => y == 0 && x == 0).L = 3 := rfl
  simp [hB, stillPixels, hd, hflat, hL, List.replicate_succ]

/-- The hypotheses of C72 are met: the last of the three frames of the wall. -/
theorem thresholds_hypotheses : ∃ (m : PC ℝ) (R : Rgbd.TM ℝ) (pre : Rgbd.Obj ℝ), forward (sysS .gt) (seqS fun _ _ => true) = .ok (m, R) ∧
    (∀ b < (inS fun _ _ => true).B, ∀ t ≤ 2, (R.at' b t).R.transpose.mul (R.at' b t).R = M3.one) ∧
    Rgbd.getitem (.tup [.slice none none none, .slice (some 0) (some 2) none]) (seqS fun _ _ => true) = .ok pre ∧ (inS fun _ _ => true).L = 2 + 1 ∧
    SmallSeq (sysS .gt) (inS fun _ _ => true) ∧ SeqOk (sysS .gt) (seqS fun _ _ => true) (inS fun _ _ => true) := by
  obtain ⟨o, h1, h2, h3, h4, h5, _, h6⟩ := still_hypotheses (q := fun _ _ => true) rfl (odom := "gt") (by simp)
  obtain rfl := h2.1 rfl
  obtain ⟨m', R', e', _, _, hR⟩ := still_camera_stays Icp.bruteNN_nearest (by norm_num) h1 (by show (1 : Int) ≤ 20; norm_num)
    (by show (0 : ℝ) < 1 / 10 ^ 8; norm_num) (by show (1 : ℝ) < 2; norm_num) (.inl rfl) h3 h4 h5
  refine ⟨m', R', _, e', fun b hb t ht => ?_, rfl, rfl, h3, h4⟩
  rw [hR b hb t (Nat.lt_succ_of_le ht)]
  exact turnR_rigid.2.2

end Verif.Slam

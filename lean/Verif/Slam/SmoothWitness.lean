import Verif.Slam.SmoothRun
import Verif.Slam.StaticWitness
import Mathlib.Analysis.Complex.ExponentialBounds
/-!
A concrete case for C78: the three frames of the wall of C73, with depths, focal length, colours and camera positions that vary with a parameter.
-/
namespace Verif.Slam
open Verif Pcs Topology Filter
open Verif.Icp (Sm SmV SmM3 SmM4)
set_option maxRecDepth 100000

noncomputable def rgbX (e : ℝ) : Rgbd.T5 ℝ := ⟨⟨1, 3, 2, 2, 3⟩, fun _ _ h w c => h + w + c + e⟩
/-- The lower row of pixels moves twice as fast as the upper one. -/
noncomputable def depthX (e : ℝ) : Rgbd.T5 ℝ := ⟨⟨1, 3, 2, 2, 1⟩, fun _ _ h _ _ => 2 + e * (h + 1)⟩
noncomputable def KX (e : ℝ) : Rgbd.TM ℝ := ⟨1, 1, fun _ _ => ⟨⟨⟨2 + e, 0, 1⟩, ⟨0, 2, 1⟩, ⟨0, 0, 1⟩⟩, .zero, .zero, 1⟩⟩
/-- A camera that moves along the first axis. -/
noncomputable def poseX (e : ℝ) : Rgbd.TM ℝ := ⟨1, 3, fun _ t => ⟨turnR.R, ⟨5 + t * e, 6, 7⟩, .zero, 1⟩⟩
noncomputable def seqX (e : ℝ) : Rgbd.Obj ℝ :=
  ⟨false, rgbX e, depthX e, KX e, some (poseX e), none, none, none, none, none, none, (rgbX e).sh, none, 1, 3, 2, 2⟩
noncomputable def inX (e : ℝ) : Rgbd.In ℝ := Rgbd.inputsOf (rgbX e) (depthX e) (KX e) (some (poseX e)) false none
theorem seqX_new (e : ℝ) : Rgbd.new (rgbX e) (depthX e) (KX e) (some (poseX e)) false none = .ok (seqX e) := rfl

theorem X_zero : rgbX 0 = rgbS ∧ depthX 0 = depthS (fun _ _ => true) ∧ KX 0 = KR ∧ poseX 0 = poseS := by
  simp [rgbX, rgbS, depthX, depthS, KX, KR, poseX, poseS, turnR]
theorem seqX_zero : seqX 0 = seqS fun _ _ => true := by
  obtain ⟨h1, h2, h3, h4⟩ := X_zero
  rw [seqX, seqS, h1, h2, h3, h4]
theorem inX_zero : inX 0 = inS fun _ _ => true := by
  obtain ⟨h1, h2, h3, h4⟩ := X_zero
  rw [inX, inS, h1, h2, h3, h4]

local notation "W" => inS (fun _ _ => true)

theorem inX_smooth (k : WithTop ℕ∞) : SmIn k (0 : ℝ) (sysS .gt).eps inX := by
  have hid : Sm k (0 : ℝ) fun e : ℝ => e := contDiffAt_id
  refine ⟨fun e => ⟨rfl, rfl, rfl, rfl⟩, fun b _ l _ h _ w _ => ?_, fun b _ l _ h _ w _ => ?_, fun b _ l _ h _ w _ => ?_, fun b _ => ?_, fun b _ l _ h _ w _ => .inl ?_,
    fun b _ => ?_, fun b hb l _ h hh w hw _ => .inl ?_⟩
  · exact ⟨(Sm.const _).fun_add hid, (Sm.const _).fun_add hid, (Sm.const _).fun_add hid⟩
  · exact (Sm.const _).fun_add (hid.fun_mul (.const _))
  · exact SmV.const ((inX 0).pix b l h w)
  · exact ⟨⟨⟨(Sm.const _).fun_add hid, .const _, .const _⟩, .const _, .const _⟩, .const _, .const _, .const _⟩
  · rw [inX_zero]; show (0 : ℝ) < if true then 2 else 0; norm_num
  · rw [inX_zero]; constructor
    · show (2 : ℝ) + 1 / 10 ^ 6 ≠ 0; norm_num
    · show (2 : ℝ) + 1 / 10 ^ 6 ≠ 0; norm_num
  · rw [inX_zero]
    obtain rfl : b = 0 := by have : b < 1 := hb; omega
    exact wall_cross (x := (h, w)) hh hw .gt

/-- The world point of a pixel of the wall. -/
noncomputable def wallAt (y x : Nat) : V3 ℝ := (turnR.R.mulVec ⟨2 * ((x - 1) / (2 + 1 / 10 ^ 6)), 2 * ((y - 1) / (2 + 1 / 10 ^ 6)), 2⟩).add turnR.t

theorem wallAt_eq (y x : Nat) : wallAt y x = ⟨5 - 2 * ((y - 1) / (2 + 1 / 10 ^ 6)), 6 + 2 * ((x - 1) / (2 + 1 / 10 ^ 6)), 9⟩ := by
  ext <;> simp [wallAt, turnR, M3.mulVec, V3.dot, V3.add] <;> ring

theorem wall_far {y x h w : Nat} (hne : (h, w) ≠ (y, x)) : 1 / 20 < Rgbd.nrmR ((wallAt h w).sub (wallAt y x)) := by
  rw [wallAt_eq, wallAt_eq, Rgbd.nrmR]
  apply Real.lt_sqrt_of_sq_lt
  simp only [V3.sub, V3.dot]
  have key : ∀ a b : Nat, a ≠ b → (1 : ℝ) ≤ ((a : ℝ) - b) ^ 2 := by
    intro a b hab
    have : (1 : Int) ≤ ((a : Int) - b) ^ 2 := by
      have h1 : ((a : Int) - b) ≠ 0 := by omega
      have := pow_pos (abs_pos.2 h1) 2
      rw [sq_abs] at this; omega
    exact_mod_cast this
  have h1 : (0 : ℝ) ≤ ((h : ℝ) - y) ^ 2 := sq_nonneg _
  have h2 : (0 : ℝ) ≤ ((w : ℝ) - x) ^ 2 := sq_nonneg _
  have h3 : (1 : ℝ) ≤ ((h : ℝ) - y) ^ 2 + ((w : ℝ) - x) ^ 2 := by
    by_cases e : h = y
    · have : w ≠ x := fun e' => hne (by rw [e, e'])
      linarith [key _ _ this]
    · linarith [key _ _ e]
  have e : ∀ u v s : ℝ, (5 - 2 * ((h - 1) / u) - (5 - 2 * (((y : ℝ) - 1) / u))) * (5 - 2 * ((h - 1) / u) - (5 - 2 * (((y : ℝ) - 1) / u))) +
      (6 + 2 * ((w - 1) / u) - (6 + 2 * (((x : ℝ) - 1) / u))) * (6 + 2 * ((w - 1) / u) - (6 + 2 * (((x : ℝ) - 1) / u))) + (9 - 9) * (9 - 9) =
      (2 / u) ^ 2 * (((h : ℝ) - y) ^ 2 + ((w : ℝ) - x) ^ 2) := by intro u v s; ring
  rw [e _ 0 0]
  have : ((1 : ℝ) / 20) ^ 2 < (2 / (2 + 1 / 10 ^ 6)) ^ 2 := by norm_num
  nlinarith

theorem wall_pixel (x : Nat) (hx : x < 2) : |(1 + 2 * (((x : ℝ) - 1) / (2 + 1 / 10 ^ 6))) - x| < 1 / 1000 := by
  interval_cases x <;> norm_num

theorem off_edge {u : ℝ} {x : Nat} (hx : x < 2) (h : |u - x| < 1 / 1000) : OffEdge u 2 ∧ ∀ m : Nat, |u - m| ≠ 1 / 2 := by
  rw [abs_lt] at h
  have h0 : (0 : ℝ) ≤ x := Nat.cast_nonneg x
  have h1 : (x : ℝ) ≤ 1 := by exact_mod_cast Nat.le_of_lt_succ hx
  refine ⟨⟨?_, ?_⟩, fun m hm => ?_⟩
  · linarith [h.1]
  · intro e; push_cast at e; linarith [h.2]
  · rcases Nat.lt_trichotomy m x with hlt | rfl | hlt
    · have : (m : ℝ) + 1 ≤ x := by exact_mod_cast hlt
      have := (abs_le.1 hm.le).2; linarith [h.1]
    · rw [abs_eq (by norm_num)] at hm
      rcases hm with hm | hm <;> linarith [h.1, h.2]
    · have : (x : ℝ) + 1 ≤ m := by exact_mod_cast hlt
      have := (abs_le.1 hm.le).1; linarith [h.2]

theorem wall_proj (y x : Nat) : Geom.projectPoint ((W).K 0) (.inl ⟨2 * ((x - 1) / (2 + 1 / 10 ^ 6)), 2 * ((y - 1) / (2 + 1 / 10 ^ 6)), 2⟩) =
    (1 + 2 * (((x : ℝ) - 1) / (2 + 1 / 10 ^ 6)), 1 + 2 * (((y : ℝ) - 1) / (2 + 1 / 10 ^ 6))) := by
  have e : (W).K 0 = ⟨⟨⟨2, 0, 1⟩, ⟨0, 2, 1⟩, ⟨0, 0, 1⟩⟩, .zero, .zero, 1⟩ := rfl
  rw [e]
  simp only [Geom.projectPoint, Geom.guardZ, M4.mulVec, M3.mulVec, V3.dot, V3.add, V3.smul, V3.zero]
  norm_num
  constructor <;> ring

theorem cos20 : 0 ≤ Real.cos (20 * Real.pi / 180) ∧ Real.cos (20 * Real.pi / 180) < 1 := by
  have hp := Real.pi_pos
  refine ⟨Real.cos_nonneg_of_neg_pi_div_two_le_of_le (by linarith) (by linarith), ?_⟩
  have := Real.cos_lt_cos_of_nonneg_of_le_pi_div_two (le_refl 0) (show 20 * Real.pi / 180 ≤ Real.pi / 2 by linarith) (by linarith)
  rwa [Real.cos_zero] at this

theorem wall_vertex {y x : Nat} (hy : y < 2) (hx : x < 2) (l : Nat) :
    Rgbd.vertexAt (sysS .gt).eps W 0 l y x = ⟨2 * ((x - 1) / (2 + 1 / 10 ^ 6)), 2 * ((y - 1) / (2 + 1 / 10 ^ 6)), 2⟩ := vertexS (q := fun _ _ => true) hy hx rfl .gt

theorem wall_normal {y x : Nat} (hy : y < 2) (hx : x < 2) : (Rgbd.normalAt (sysS .gt).nrm (sysS .gt).eps W 0 0 y x).dot (Rgbd.normalAt (sysS .gt).nrm (sysS .gt).eps W 0 0 y x) = 1 := by
  rw [Rgbd.normalAt, if_pos (by rw [depthS_at]; norm_num)]
  rcases (Rgbd.normal_unit_orthogonal (nrm := (sysS .gt).nrm) Rgbd.nrmR_isNorm _ _).1 with ⟨_, hc⟩ | hc
  · exact absurd hc (wall_cross (x := (y, x)) hy hx .gt)
  · exact hc

theorem turnR_dot (v : V3 ℝ) : (turnR.R.mulVec v).dot (turnR.R.mulVec v) = v.dot v := by
  simp [turnR, M3.mulVec, V3.dot]; ring

/-- The map of the wall after some frames: every point is the world point of one pixel. -/
structure WallMap (a : Clouds ℝ) : Prop where
  wf : ∃ P, Wf a P
  row : ∀ b n, n < Fusion.sizeAt ((a .points).getD []) b → b = 0 ∧ ∃ y x, y < 2 ∧ x < 2 ∧ (depthPixels W 0 0)[n]? = some (y, x) ∧ vec (a .points) 0 n = wallAt y x ∧
    vec (a .normals) 0 n = turnR.R.mulVec (Rgbd.normalAt (sysS .gt).nrm (sysS .gt).eps W 0 0 y x)

theorem wall_run {Ts : List (Rgbd.TM ℝ)} {a : Clouds ℝ} (r : Run (sysS .gt) (seqS fun _ _ => true) W Ts a) (h0 : 0 < Ts.length) (h3 : Ts.length ≤ 3) : WallMap a := by
  obtain ⟨o, h1, h2, _, hs, h5, _, h6⟩ := still_hypotheses (q := fun _ _ => true) rfl (odom := "gt") (by simp)
  obtain rfl := h2.1 rfl
  have hmade := (sensible_made h1).1
  have hst := (run_still Icp.bruteNN_nearest (by norm_num) hmade (by show (1 : Int) ≤ 20; norm_num)
    (by show (0 : ℝ) < 1 / 10 ^ 8; norm_num) (by show (1 : ℝ) < 2; norm_num) Rgbd.nrmR_isNorm (fun d t h => by
      cases h; exact ⟨by norm_num, cos20⟩) hs.B h5 r h3).2 _ _ rfl (by intro h; rw [h] at h0; simp at h0)
  have hn : ∀ x ∈ depthPixels W 0 0, Rgbd.normalAt (sysS .gt).nrm (sysS .gt).eps W 0 0 x.1 x.2 ≠ V3.zero := by
    intro x hx h0
    obtain ⟨x1, x2, _⟩ := mem_S.1 hx
    have := wall_normal x1 x2
    rw [h0] at this; simp [V3.dot, V3.zero] at this
  obtain ⟨P, hP, e1⟩ := hst.vec .points (by simp)
  obtain ⟨N, hN, e2⟩ := hst.vec .normals (by simp)
  obtain ⟨hw, hlen, _⟩ := run_wf hs.B r P hP
  refine ⟨⟨P, hw⟩, fun b n hbn => ?_⟩
  have hb : b = 0 := by
    by_contra hb
    have : P.length = 1 := hlen
    rw [hP, Option.getD_some, ← Fusion.sizeAt_isSome] at hbn
    simp [Fusion.rowAt, List.getElem?_eq_none (show P.length ≤ b by omega)] at hbn
  subst hb
  have v1 := e1 0 (by show 0 < 1; norm_num) n
  have v2 := e2 0 (by show 0 < 1; norm_num) n
  rw [hP, Option.getD_some] at hbn
  rw [vec_some hw (by simp) hP hbn, still_pixels_once hn] at v1
  rw [vec_some hw (by simp) hN (by rw [Fusion.sizeAt_sizes (hw.rows _ _ hN)]; exact hbn), still_pixels_once hn] at v2
  cases hx : (depthPixels W 0 0)[n]? with
  | none => rw [hx] at v1; cases v1
  | some x =>
    obtain ⟨y1, y2, _⟩ := mem_S.1 (List.mem_of_getElem? hx)
    rw [hx, Option.map_some, Option.some_inj] at v1 v2
    refine ⟨rfl, x.1, x.2, y1, y2, rfl, ?_, v2⟩
    rw [v1, worldValue, wall_vertex y1 y2]; rfl

/-- No decision is on an edge. -/
theorem wall_calm {n : Nat} {T : ℝ → Rgbd.TM ℝ} {a : ℝ → Clouds ℝ} (hT : (T 0).at' 0 0 = turnR) (ha : WallMap (a 0)) :
    CalmFuse (sysS .gt).nrm (sysS .gt).eps (1 / 20) (Real.cos (20 * Real.pi / 180)) (0 : ℝ) (fun e => posed (snap (inX e) n) (T e)) (fun e => (T e).at') a := by
  obtain ⟨s1, s2, s3, s4, _⟩ := (snap_spec W n).2.2.2.2 0 (by show 0 < 1; norm_num)
  have hK : (posed (snap (inX 0) n) (T 0)).K 0 = (W).K 0 := by rw [inX_zero]; exact s3
  have hseen : ∀ {m y x}, vec (a 0 .points) 0 m = wallAt y x → seenFrom (T 0).at' (a 0) 0 m = ⟨2 * ((x - 1) / (2 + 1 / 10 ^ 6)), 2 * ((y - 1) / (2 + 1 / 10 ^ 6)), 2⟩ := by
    intro m y x h
    rw [seenFrom, h, hT, wallAt, toCamera_world turnR_rigid.2.2]
  have hgv : ∀ {h w}, h < 2 → w < 2 → Rgbd.gvertexAt (sysS .gt).eps (posed (snap (inX 0) n) (T 0)) 0 0 h w = wallAt h w := by
    intro h w hh hw
    have e : Rgbd.gvertexAt (sysS .gt).eps (posed (snap (inX 0) n) (T 0)) 0 0 h w =
      if 0 < (snap (inX 0) n).depth 0 0 h w then (((T 0).at' 0 0).R.mulVec (Rgbd.vertexAt (sysS .gt).eps (snap (inX 0) n) 0 0 h w)).add ((T 0).at' 0 0).t else V3.zero := rfl
    have hd : 0 < (snap (inX 0) n).depth 0 0 h w := by rw [inX_zero, s2, depthS_at]; norm_num
    refine (e.trans (if_pos hd)).trans ?_
    have ev : Rgbd.vertexAt (sysS .gt).eps (snap (inX 0) n) 0 0 h w = Rgbd.vertexAt (sysS .gt).eps W 0 n h w := by rw [inX_zero]; simp only [Rgbd.vertexAt, s2, s3, s4]
    rw [ev, wall_vertex hh hw, hT]; rfl
  have hgn : ∀ {h w}, Rgbd.gnormalAt (sysS .gt).nrm (sysS .gt).eps (posed (snap (inX 0) n) (T 0)) 0 0 h w = turnR.R.mulVec (Rgbd.normalAt (sysS .gt).nrm (sysS .gt).eps W 0 0 h w) := by
    intro h w
    have e : Rgbd.gnormalAt (sysS .gt).nrm (sysS .gt).eps (posed (snap (inX 0) n) (T 0)) 0 0 h w =
      ((T 0).at' 0 0).R.mulVec (Rgbd.normalAt (sysS .gt).nrm (sysS .gt).eps (snap (inX 0) n) 0 0 h w) := rfl
    rw [e, hT, inX_zero]
    simp only [Rgbd.normalAt, Rgbd.tanW, Rgbd.tanH, Rgbd.vertexAt, s2, s3, s4]
    rfl
  refine ⟨fun b m hm => .inr ?_, fun b m hm _ j => ?_, fun b m h w hm hh hw _ => ?_, fun r s hr hs hrs hne => absurd ?_ hne⟩
  · obtain ⟨rfl, y, x, hy, hx, _, hp, _⟩ := ha.row b m hm
    rw [hseen hp, hK, wall_proj]
    refine ⟨?_, by norm_num, (off_edge hx (wall_pixel x hx)).1, (off_edge hy (wall_pixel y hy)).1⟩
    have e : (W).K 0 = ⟨⟨⟨2, 0, 1⟩, ⟨0, 2, 1⟩, ⟨0, 0, 1⟩⟩, .zero, .zero, 1⟩ := rfl
    rw [e]
    simp [M4.mulVec, M3.mulVec, V3.dot, V3.add, V3.smul, V3.zero]
  · obtain ⟨rfl, y, x, hy, hx, _, hp, _⟩ := ha.row b m hm
    rw [hseen hp, hK, wall_proj]
    exact ⟨(off_edge hx (wall_pixel x hx)).2 j, (off_edge hy (wall_pixel y hy)).2 j⟩
  · obtain ⟨rfl, y, x, hy, hx, _, hp, hq⟩ := ha.row b m hm
    rw [hgv hh hw, hp, hgn, hq]
    by_cases e : (h, w) = (y, x)
    · cases e
      refine .inr (.inr ⟨?_, ?_⟩)
      · have : (wallAt h w).sub (wallAt h w) = V3.zero := by ext <;> simp [V3.sub, V3.zero]
        rw [this]
        show Rgbd.nrmR V3.zero < _
        rw [nrmR_zero.2 rfl]; norm_num
      · rw [turnR_dot, wall_normal hy hx]; exact cos20.2
    · exact .inl (wall_far e)
  · have key : ∀ r : Fusion.Row, Fusion.Candidate (sysS .gt).nrm ((a 0 .points).getD []) ((a 0 .normals).getD []) (Fusion.Frame.ofIn (sysS .gt).nrm (sysS .gt).eps (posed (snap (inX 0) n) (T 0)))
        (T 0).at' (1 / 20) (Real.cos (20 * Real.pi / 180)) r → (depthPixels W 0 0)[r.n]? = some (r.h, r.w) := by
      intro r hr
      obtain ⟨p, q, hp, _, hd, _⟩ := hr.similar
      have hlt := vecAt_size hp
      obtain ⟨hb, y, x, hy, hx, hi, hv, _⟩ := ha.row r.b r.n hlt
      have hbox := hr.pix
      have hp' : p = wallAt y x := by
        obtain ⟨P, hw⟩ := ha.wf
        rw [hw.pts, Option.getD_some] at hp hlt
        have := vec_some hw (X := .points) (by simp) hw.pts hlt
        rw [hp, Option.some_inj] at this
        rw [this, hb, hv]
      have e : (Fusion.Frame.ofIn (sysS .gt).nrm (sysS .gt).eps (posed (snap (inX 0) n) (T 0))).gv r.b 0 r.h r.w = wallAt r.h r.w := by
        rw [hb]; exact hgv hbox.1 hbox.2
      rw [e, hp'] at hd
      by_contra hne
      rw [hi, Option.some_inj] at hne
      exact absurd hd (wall_far fun h => hne h.symm).not_gt
    have h1 := key r hr
    have h2 := key s hs
    rw [hrs.2.1, hrs.2.2, ← h1] at h2
    obtain ⟨hl, _⟩ := List.getElem?_eq_some_iff.1 h1
    exact ((List.getElem?_inj hl (depthPixels_nodup W 0 0)).1 h2.symm).symm

theorem wall_weight (k : WithTop ℕ∞) {y x : Nat} (hy : y < 2) (hx : x < 2) (l : Nat) : SmAt k (sysS .gt).al (Rgbd.vertexAt (sysS .gt).eps W 0 l y x) := by
  refine getAlpha_smAt (by norm_num) (by norm_num) (ne_of_gt ?_)
  rw [wall_vertex hy hx]
  have h9 : Real.exp 9 < 3 ^ 9 := by
    have : Real.exp 9 = Real.exp 1 ^ 9 := by rw [← Real.exp_nat_mul]; norm_num
    rw [this]
    exact pow_lt_pow_left₀ (by linarith [Real.exp_one_lt_d9]) (Real.exp_pos _).le (by norm_num)
  have h1 : (1 / 10 ^ 7 : ℝ) < Real.exp (-9) := by
    rw [Real.exp_neg, lt_inv_comm₀ (by norm_num) (Real.exp_pos _)]
    exact h9.trans (by norm_num)
  refine h1.trans_le (Real.exp_le_exp.2 ?_)
  simp only [V3.normSq, V3.dot]
  interval_cases y <;> interval_cases x <;> norm_num

/-- The hypotheses of C78 are met, with any number of derivatives. -/
theorem smooth_hypotheses (k : WithTop ℕ∞) : SmIn k (0 : ℝ) (sysS .gt).eps inX ∧ (∀ e, SeqOk (sysS .gt) (seqX e) (inX e)) ∧ (∀ e, SysOk (sysS .gt) (inX e)) ∧
    CalmMap k (0 : ℝ) (sysS .gt) seqX inX ∧ ∀ b < (inX 0).B, ∀ t < (inX 0).L, SmM4 k (0 : ℝ) fun e => (poseX e).at' b t := by
  obtain ⟨o, h1, h2, h3, hs, h5, _, h6⟩ := still_hypotheses (q := fun _ _ => true) rfl (odom := "gt") (by simp)
  obtain rfl := h2.1 rfl
  refine ⟨inX_smooth k, fun e => seqOk_of_hist (S := sysS .gt) (Rgbd.Hist.new (seqX_new e)) (.inl rfl) (by show 0 < 1; norm_num) (by show 2 ≤ 2; norm_num) (by show 2 ≤ 2; norm_num),
    fun e => (made_sysOk (i := inX e) (sensible_made h1).1 (.inl rfl) h3).1, .inr ⟨_, _, rfl, cos20.1, fun p => ?_, fun b hb l _ h hh w hw _ => ?_,
      fun n Ts a T hn hnL hr hl => ?_⟩, fun b _ t _ => ?_⟩
  · exact lt_of_lt_of_le (by norm_num) (Fusion.alpha_range (sigma := 6 / 10) (eps := 1 / 10 ^ 7) (by norm_num) (by norm_num) p).1
  · rw [inX_zero]
    obtain rfl : b = 0 := by have : b < 1 := hb; omega
    exact wall_weight k hh hw l
  · obtain ⟨hr0, hlen⟩ := hr.self_of_nhds
    have hl0 := hl.self_of_nhds
    rw [seqX_zero, inX_zero] at hr0 hl0
    have hnL' : n < 3 := hnL
    refine wall_calm ?_ (wall_run hr0 (by omega) (by omega))
    obtain ⟨U, hU, e⟩ := given_still h5 (k := (Ts 0).length) (by show _ < 3; omega) (.inl rfl)
    have hl1 : Except.ok (T 0) = ofPoses (given (seqS fun _ _ => true) W (Ts 0).length) := hl0
    rw [hU] at hl1
    cases hl1
    exact e 0 (by show 0 < 1; norm_num)
  · have hid : Sm k (0 : ℝ) fun e : ℝ => e := contDiffAt_id
    exact ⟨.const _, ⟨(Sm.const _).fun_add ((Sm.const _).fun_mul hid), .const _, .const _⟩, .const _, .const _⟩

/-- C78 on the wall: near 0, `PointFusion(odom="gt")` returns a map and poses that depend smoothly on the parameter. -/
theorem smooth_wall (k : WithTop ℕ∞) : ∃ (m : ℝ → PC ℝ) (R : ℝ → Rgbd.TM ℝ), (∀ᶠ e in 𝓝 0, forward (sysS .gt) (seqX e) = .ok (m e, R e)) ∧
    SmMap k (0 : ℝ) (fun e X => (getList X (m e)).1) ∧ ∀ t < 3, SmM4 k (0 : ℝ) fun e => (R e).at' 0 t := by
  obtain ⟨h1, h2, h3, h4, h5⟩ := smooth_hypotheses k
  obtain ⟨h6, h7⟩ := mapping_smooth h1 (Eventually.of_forall h2) (Eventually.of_forall h3) rfl rfl h4 (P := poseX) (fun _ => rfl) h5
  have : Nonempty (PC ℝ × Rgbd.TM ℝ) := by
    obtain ⟨m, R, _⟩ := h6.self_of_nhds
    exact ⟨(m, R)⟩
  obtain ⟨f, hf⟩ := choose_near (h6.mono fun e ⟨m, R, h⟩ => (⟨(m, R), h⟩ : ∃ y : PC ℝ × Rgbd.TM ℝ, forward (sysS .gt) (seqX e) = .ok y))
  obtain ⟨g1, g2⟩ := h7 (fun e => (f e).1) (fun e => (f e).2) hf
  exact ⟨_, _, hf, g1, fun t ht => g2 0 (by show 0 < 1; norm_num) t ht⟩

end Verif.Slam

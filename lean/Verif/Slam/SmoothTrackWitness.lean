import Verif.Slam.SmoothTrack
import Verif.Slam.SmoothWitness
import Verif.Icp.SmoothWitness
/-!
A concrete case for C79: a wall that is two units away in the first frame and three in the second, sampled at one pixel.
-/
namespace Verif.Slam
open Verif Pcs Topology Filter
open Verif.Icp (Sm SmV SmM3 SmM4 SmL vecs)
set_option maxRecDepth 100000

noncomputable def rgbY (e : ℝ) : Rgbd.T5 ℝ := ⟨⟨1, 2, 2, 2, 3⟩, fun _ _ h w c => h + w + c + e⟩
/-- The distance to the wall in the second frame varies. -/
noncomputable def depthY (e : ℝ) : Rgbd.T5 ℝ := ⟨⟨1, 2, 2, 2, 1⟩, fun _ l _ _ _ => if l = 0 then 2 else 3 + e⟩
noncomputable def KY : Rgbd.TM ℝ := ⟨1, 1, fun _ _ => ⟨⟨⟨2, 0, 0⟩, ⟨0, 2, 0⟩, ⟨0, 0, 1⟩⟩, .zero, .zero, 1⟩⟩
noncomputable def poseY (e : ℝ) : Rgbd.TM ℝ := ⟨1, 2, fun _ _ => ⟨.one, ⟨e, 0, -2⟩, .zero, 1⟩⟩
noncomputable def seqY (e : ℝ) : Rgbd.Obj ℝ :=
  ⟨false, rgbY e, depthY e, KY, some (poseY e), none, none, none, none, none, none, (rgbY e).sh, none, 1, 2, 2, 2⟩
noncomputable def inY (e : ℝ) : Rgbd.In ℝ := Rgbd.inputsOf (rgbY e) (depthY e) KY (some (poseY e)) false none
theorem seqY_new (e : ℝ) : Rgbd.new (rgbY e) (depthY e) KY (some (poseY e)) false none = .ok (seqY e) := rfl
/-- The default parameters of `ICPSLAM`, except for the sampling ratio. -/
noncomputable def paramsY : Params := ⟨2, 20, 1 / 10 ^ 8, none, 2, 1, 1, 200⟩
noncomputable def sysY (o : Odom ℝ) : Sys ℝ := ⟨o, 2, .aggregate, Rgbd.nrmR, Fusion.getAlpha (6 / 10) (1 / 10 ^ 7), 1 / 10 ^ 6⟩

theorem depthY_at (e : ℝ) (b l h w : Nat) : (inY e).depth b l h w = if l = 0 then 2 else 3 + e := rfl
theorem depthY_pos (b l h w : Nat) : 0 < (inY 0).depth b l h w := by rw [depthY_at]; split_ifs <;> norm_num

theorem vertexY {l y x : Nat} (hl : l < 2) (hy : y < 2) (hx : x < 2) :
    Rgbd.vertexAt (1 / 10 ^ 6) (inY 0) 0 l y x = ⟨(2 + l) * (x / (2 + 1 / 10 ^ 6)), (2 + l) * (y / (2 + 1 / 10 ^ 6)), 2 + l⟩ := by
  have hd : (inY 0).depth 0 l y x = 2 + l := by rw [depthY_at]; interval_cases l <;> norm_num
  rw [Rgbd.vertexAt, if_pos (depthY_pos 0 l y x), hd,
    show (inY 0).pix 0 l y x = ⟨(x : ℝ), (y : ℝ), 1⟩ from by
      have := Rgbd.default_pixels (seqY_new 0) 0 l y x hy hx; exact this]
  have e : (inY 0).K 0 = ⟨⟨⟨2, 0, 0⟩, ⟨0, 2, 0⟩, ⟨0, 0, 1⟩⟩, .zero, .zero, 1⟩ := rfl
  rw [e]
  simp [Rgbd.backproj]

theorem tanY {l y x : Nat} (hl : l < 2) (hy : y < 2) (hx : x < 2) :
    (Rgbd.tanW (1 / 10 ^ 6) (inY 0) 0 l y x).cross (Rgbd.tanH (1 / 10 ^ 6) (inY 0) 0 l y x) = ⟨0, 0, ((2 + l) * (1 / (2 + 1 / 10 ^ 6))) ^ 2⟩ := by
  have f2 : ∀ k < 2, Rgbd.fwd 2 k = 0 := by intro k hk; unfold Rgbd.fwd; split_ifs <;> omega
  have eW : Rgbd.tanW (1 / 10 ^ 6) (inY 0) 0 l y x = ⟨(2 + l) * (1 / (2 + 1 / 10 ^ 6)), 0, 0⟩ := by
    rw [Rgbd.tanW, show (inY 0).W = 2 from rfl, f2 _ hx, vertexY hl hy (by norm_num), vertexY hl hy (by norm_num)]
    ext <;> simp [V3.sub]
  have eH : Rgbd.tanH (1 / 10 ^ 6) (inY 0) 0 l y x = ⟨0, (2 + l) * (1 / (2 + 1 / 10 ^ 6)), 0⟩ := by
    rw [Rgbd.tanH, show (inY 0).H = 2 from rfl, f2 _ hy, vertexY hl (by norm_num) hx, vertexY hl (by norm_num) hx]
    ext <;> simp [V3.sub]
  rw [eW, eH]
  ext <;> simp [V3.cross]; ring

theorem normalY {y x : Nat} (hy : y < 2) (hx : x < 2) : Rgbd.normalAt Rgbd.nrmR (1 / 10 ^ 6) (inY 0) 0 0 y x = ⟨0, 0, 1⟩ := by
  rw [Rgbd.normalAt, if_pos (depthY_pos 0 0 y x), tanY (by norm_num) hy hx]
  have h : ∀ z : ℝ, 0 < z → Rgbd.unit Rgbd.nrmR ⟨0, 0, z⟩ = ⟨0, 0, 1⟩ := by
    intro z hz
    have : Rgbd.nrmR ⟨0, 0, z⟩ = z := by simp [Rgbd.nrmR, V3.dot, Real.sqrt_mul_self hz.le]
    rw [Rgbd.unit, this, if_neg hz.ne']
    simp [hz.ne']
  exact h _ (by positivity)

theorem inY_smooth (k : WithTop ℕ∞) (o : Odom ℝ) : SmIn k (0 : ℝ) (sysY o).eps inY := by
  have hid : Sm k (0 : ℝ) fun e : ℝ => e := contDiffAt_id
  refine ⟨fun e => ⟨rfl, rfl, rfl, rfl⟩, fun b _ l _ h _ w _ => ?_, fun b _ l _ h _ w _ => ?_, fun b _ l _ h _ w _ => ?_, fun b _ => ?_, fun b _ l _ h _ w _ => .inl (depthY_pos b l h w),
    fun b _ => ?_, fun b hb l hl h hh w hw _ => .inl ?_⟩
  · exact ⟨(Sm.const _).fun_add hid, (Sm.const _).fun_add hid, (Sm.const _).fun_add hid⟩
  · rcases Nat.eq_zero_or_pos l with rfl | h0
    · exact Sm.const (2 : ℝ)
    · have e1 : (fun e : ℝ => (inY e).depth b l h w) = fun e => 3 + e := by funext e; rw [depthY_at, if_neg (by omega)]
      rw [e1]; exact (Sm.const _).fun_add hid
  · exact SmV.const ((inY 0).pix b l h w)
  · exact .const _
  · constructor
    · show (2 : ℝ) + 1 / 10 ^ 6 ≠ 0; norm_num
    · show (2 : ℝ) + 1 / 10 ^ 6 ≠ 0; norm_num
  · obtain rfl : b = 0 := by have : b < 1 := hb; omega
    intro h0
    have h1 := congrArg V3.z ((tanY hl hh hw).symm.trans h0)
    simp only [V3.zero] at h1
    have : (0 : ℝ) < ((2 + (l : ℝ)) * (1 / (2 + 1 / 10 ^ 6))) ^ 2 := by positivity
    linarith

/-- The world point of a pixel of the first frame. -/
noncomputable def pointY (y x : Nat) : V3 ℝ := ⟨2 * (x / (2 + 1 / 10 ^ 6)), 2 * (y / (2 + 1 / 10 ^ 6)), 0⟩

/-- The map after the first frame. -/
structure FirstMap (a : Clouds ℝ) : Prop where
  size : Fusion.sizeAt ((a .points).getD []) 0 = 4
  none : ∀ b, b ≠ 0 → Fusion.sizeAt ((a .points).getD []) b = 0
  row : ∀ y x, y < 2 → x < 2 → vec (a .points) 0 (2 * y + x) = pointY y x ∧ vec (a .normals) 0 (2 * y + x) = ⟨0, 0, 1⟩

theorem pixelsY (m : Nat → Nat → Nat → Bool) (h : ∀ y x, m 0 y x = true) : Fusion.pixels 1 2 2 m = [(0, 0, 0), (0, 0, 1), (0, 1, 0), (0, 1, 1)] := by
  rw [pixels_one]
  simp [h, List.range_succ]

theorem snapY_depth {l : Nat} (y x : Nat) : 0 < (snap (inY 0) l).depth 0 0 y x := by
  rw [((snap_spec (inY 0) l).2.2.2.2 0 (by show 0 < 1; norm_num)).2.1]; exact depthY_pos 0 l y x

theorem snapY_vertex {l y x : Nat} (hl : l < 2) (hy : y < 2) (hx : x < 2) (T : Rgbd.TM ℝ) : Rgbd.vertexAt (1 / 10 ^ 6) (posed (snap (inY 0) l) T) 0 0 y x =
    ⟨(2 + l) * (x / (2 + 1 / 10 ^ 6)), (2 + l) * (y / (2 + 1 / 10 ^ 6)), 2 + l⟩ := by
  obtain ⟨s1, s2, s3, s4, _⟩ := (snap_spec (inY 0) l).2.2.2.2 0 (by show 0 < 1; norm_num)
  rw [← vertexY hl hy hx]
  simp only [Rgbd.vertexAt, posed, s2, s3, s4]

theorem snapY_gvertex {l y x : Nat} (hl : l < 2) (hy : y < 2) (hx : x < 2) {T : Rgbd.TM ℝ} (hT : T.at' 0 0 = Icp.slide (-2)) : Rgbd.gvertexAt (1 / 10 ^ 6) (posed (snap (inY 0) l) T) 0 0 y x =
    ⟨(2 + l) * (x / (2 + 1 / 10 ^ 6)), (2 + l) * (y / (2 + 1 / 10 ^ 6)), l⟩ := by
  have e : Rgbd.gvertexAt (1 / 10 ^ 6) (posed (snap (inY 0) l) T) 0 0 y x =
      if 0 < (snap (inY 0) l).depth 0 0 y x then ((T.at' 0 0).R.mulVec (Rgbd.vertexAt (1 / 10 ^ 6) (posed (snap (inY 0) l) T) 0 0 y x)).add (T.at' 0 0).t else V3.zero := rfl
  refine (e.trans (if_pos (snapY_depth y x))).trans ?_
  rw [snapY_vertex hl hy hx, hT]
  ext <;> simp [Icp.slide, M3.mulVec, M3.one, V3.dot, V3.add]

theorem first_map {o : Odom ℝ} {Ts : List (Rgbd.TM ℝ)} {a : Clouds ℝ} (r : Run (sysY o) (seqY 0) (inY 0) Ts a) (h1 : Ts.length = 1) :
    (Ts.getD 0 (eyes 1)).at' 0 0 = Icp.slide (-2) ∧ FirstMap a := by
  cases r with
  | start => simp at h1
  | @next Us c T _ r hl hc =>
    have h0 : Us = [] := by cases Us with
      | nil => rfl
      | cons _ _ => simp at h1
    subst h0
    have hg : Except.ok T = ofPoses (given (seqY 0) (inY 0) 0) := by
      cases o with
      | gt => exact hl
      | prov _ => exact hl
    have hT : T.at' 0 0 = Icp.slide (-2) := by
      have e : given (seqY 0) (inY 0) 0 = some T := by
        cases h : given (seqY 0) (inY 0) 0 with
        | none => rw [h] at hg; cases hg
        | some U => rw [h] at hg; cases hg; rfl
      have := (given_some e).2.2 0 (by show 0 < 1; norm_num)
      exact this
    refine ⟨hT, ?_⟩
    have hc0 : ∀ {Us c}, Run (sysY o) (seqY 0) (inY 0) Us c → Us = [] → c = emptyClouds := by
      intro Us c r h
      cases r with
      | start => rfl
      | next => simp at h
    obtain rfl := hc0 r rfl
    have ha : a = addition (sysY o) (posed (snap (inY 0) 0) T) := hc
    have hB : (view (sysY o) (posed (snap (inY 0) 0) T)).B = 1 := rfl
    have hpx : Fusion.pixels 1 2 2 ((view (sysY o) (posed (snap (inY 0) 0) T)).valid 0) = [(0, 0, 0), (0, 0, 1), (0, 1, 0), (0, 1, 1)] :=
      pixelsY _ fun y x => decide_eq_true (show 0 < (snap (inY 0) 0).depth 0 0 y x from snapY_depth y x)
    have hp : a .points = some (Fusion.picked (view (sysY o) (posed (snap (inY 0) 0) T)) (view (sysY o) (posed (snap (inY 0) 0) T)).valid
        (Rgbd.gvertexAt (1 / 10 ^ 6) (posed (snap (inY 0) 0) T))) := by rw [ha]; rfl
    have hn : a .normals = some (Fusion.picked (view (sysY o) (posed (snap (inY 0) 0) T)) (view (sysY o) (posed (snap (inY 0) 0) T)).valid
        (Rgbd.gnormalAt Rgbd.nrmR (1 / 10 ^ 6) (posed (snap (inY 0) 0) T))) := by rw [ha]; rfl
    have hsize : ∀ f, Fusion.sizeAt (Fusion.picked (view (sysY o) (posed (snap (inY 0) 0) T)) (view (sysY o) (posed (snap (inY 0) 0) T)).valid f) 0 = 4 := by
      intro f
      rw [sizeAt_picked _ _ _ (by rw [hB]; norm_num)]
      show (Fusion.pixels 1 2 2 _).length = 4
      rw [hpx]; rfl
    obtain ⟨hw, _⟩ := run_wf (by show 0 < 1; norm_num) (Run.next r hl hc) _ hp
    have hv : ∀ f y x, y < 2 → x < 2 → Fusion.vecAt (Fusion.picked (view (sysY o) (posed (snap (inY 0) 0) T)) (view (sysY o) (posed (snap (inY 0) 0) T)).valid f) 0 (2 * y + x) = some (f 0 0 y x) := by
      intro f y x hy hx
      rw [Fusion.vecAt_picked (by rw [hB]; norm_num)]
      show Option.map _ (Fusion.pixels 1 2 2 _)[2 * y + x]? = _
      rw [hpx]
      interval_cases y <;> interval_cases x <;> rfl
    refine ⟨?_, fun b hb => ?_, fun y x hy hx => ⟨?_, ?_⟩⟩
    · rw [hp]; exact hsize _
    · rw [hp]
      by_contra hne
      have := Fusion.sizeAt_isSome.2 (Nat.pos_of_ne_zero hne)
      rw [Option.getD_some] at this
      rw [Fusion.rowAt, List.getElem?_eq_none (by rw [Fusion.picked_length, hB]; omega)] at this
      simp at this
    · have h := vec_some (b := 0) (n := 2 * y + x) hw (X := .points) (by simp) hp (by rw [hsize]; omega)
      rw [hv _ y x hy hx, Option.some_inj] at h
      rw [← h, snapY_gvertex (by norm_num) hy hx hT, pointY]
      ext <;> simp
    · have h := vec_some (b := 0) (n := 2 * y + x) hw (X := .normals) (by simp) hn (by rw [hsize]; omega)
      rw [hv _ y x hy hx, Option.some_inj] at h
      rw [← h]
      obtain ⟨s1, s2, s3, s4, _⟩ := (snap_spec (inY 0) 0).2.2.2.2 0 (by show 0 < 1; norm_num)
      have e : Rgbd.gnormalAt Rgbd.nrmR (1 / 10 ^ 6) (posed (snap (inY 0) 0) T) 0 0 y x = (T.at' 0 0).R.mulVec (Rgbd.normalAt Rgbd.nrmR (1 / 10 ^ 6) (snap (inY 0) 0) 0 0 y x) := rfl
      have en : Rgbd.normalAt Rgbd.nrmR (1 / 10 ^ 6) (snap (inY 0) 0) 0 0 y x = Rgbd.normalAt Rgbd.nrmR (1 / 10 ^ 6) (inY 0) 0 0 y x := by
        simp only [Rgbd.normalAt, Rgbd.tanW, Rgbd.tanH, Rgbd.vertexAt, s2, s3, s4]; rfl
      rw [e, en, normalY hy hx, hT]
      ext <;> simp [Icp.slide, M3.mulVec, M3.one, V3.dot]

/-- The points of the map are seen at their pixels. -/
theorem seenY {T : Nat → Nat → M4 ℝ} {a : Clouds ℝ} (hT : T 0 0 = Icp.slide (-2)) (ha : FirstMap a) {y x : Nat} (hy : y < 2) (hx : x < 2) :
    seenFrom T a 0 (2 * y + x) = ⟨2 * (x / (2 + 1 / 10 ^ 6)), 2 * (y / (2 + 1 / 10 ^ 6)), 2⟩ := by
  rw [seenFrom, (ha.row y x hy hx).1, hT]
  ext <;> simp [Fusion.toCamera, Icp.slide, M3.mulVec, M3.one, M3.transpose, V3.dot, V3.sub, pointY, M3.c0, M3.c1, M3.c2]

theorem projY (y x : Nat) : Geom.projectPoint ((inY 0).K 0) (.inl ⟨2 * (x / (2 + 1 / 10 ^ 6)), 2 * (y / (2 + 1 / 10 ^ 6)), 2⟩) =
    (2 * ((x : ℝ) / (2 + 1 / 10 ^ 6)), 2 * ((y : ℝ) / (2 + 1 / 10 ^ 6))) := by
  have e : (inY 0).K 0 = ⟨⟨⟨2, 0, 0⟩, ⟨0, 2, 0⟩, ⟨0, 0, 1⟩⟩, .zero, .zero, 1⟩ := rfl
  rw [e]
  simp only [Geom.projectPoint, Geom.guardZ, M4.mulVec, M3.mulVec, V3.dot, V3.add, V3.smul, V3.zero]
  norm_num

theorem pixelY (x : Nat) (hx : x < 2) : |2 * ((x : ℝ) / (2 + 1 / 10 ^ 6)) - x| < 1 / 1000 := by
  interval_cases x <;> norm_num

theorem nearestY {x n : Nat} (hx : x < 2) (h : Fusion.Nearest (2 * ((x : ℝ) / (2 + 1 / 10 ^ 6))) n) : n = x := by
  have h1 := pixelY x hx
  have h2 := h.1
  rw [abs_lt] at h1
  rw [abs_le] at h2
  have a1 : (n : ℝ) < x + 1 := by linarith
  have a2 : (x : ℝ) < n + 1 := by linarith
  have a3 : n < x + 1 := by exact_mod_cast a1
  have a4 : x < n + 1 := by exact_mod_cast a2
  omega

theorem nearestY' {x : Nat} (hx : x < 2) : Fusion.Nearest (2 * ((x : ℝ) / (2 + 1 / 10 ^ 6))) x := by
  have h1 := pixelY x hx
  exact ⟨by linarith, fun h => by rw [h] at h1; norm_num at h1⟩

theorem index_cases {n : Nat} (h : n < 4) : ∃ y x, y < 2 ∧ x < 2 ∧ n = 2 * y + x := ⟨n / 2, n % 2, by omega, by omega, by omega⟩

theorem calm_viewY {T : ℝ → Nat → Nat → M4 ℝ} {a : ℝ → Clouds ℝ} (hT : T 0 0 0 = Icp.slide (-2)) (ha : FirstMap (a 0)) :
    CalmView (0 : ℝ) (fun e => snap (inY e) 0) T a := by
  have hK : (snap (inY 0) 0).K 0 = (inY 0).K 0 := ((snap_spec (inY 0) 0).2.2.2.2 0 (by show 0 < 1; norm_num)).2.2.1
  have hb : ∀ {b n}, n < Fusion.sizeAt ((a 0 .points).getD []) b → b = 0 ∧ ∃ y x, y < 2 ∧ x < 2 ∧ n = 2 * y + x := by
    intro b n h
    by_cases hb : b = 0
    · subst hb; rw [ha.size] at h; exact ⟨rfl, index_cases h⟩
    · rw [ha.none b hb] at h; omega
  refine ⟨fun b n hn => .inr ?_, fun b n hn _ m => ?_⟩
  · obtain ⟨rfl, y, x, hy, hx, rfl⟩ := hb hn
    rw [seenY hT ha hy hx, hK, projY]
    refine ⟨?_, by norm_num, (off_edge hx (pixelY x hx)).1, (off_edge hy (pixelY y hy)).1⟩
    have e : (inY 0).K 0 = ⟨⟨⟨2, 0, 0⟩, ⟨0, 2, 0⟩, ⟨0, 0, 1⟩⟩, .zero, .zero, 1⟩ := rfl
    rw [e]
    simp [M4.mulVec, M3.mulVec, V3.dot, V3.add, V3.smul, V3.zero]
  · obtain ⟨rfl, y, x, hy, hx, rfl⟩ := hb hn
    rw [seenY hT ha hy hx, hK, projY]
    exact ⟨(off_edge hx (pixelY x hx)).2 m, (off_edge hy (pixelY y hy)).2 m⟩

/-- Only the top left pixel is sampled. -/
theorem rowsY {a : Clouds ℝ} {P : List (T2 ℝ)} (hw : Wf a P) (ha : FirstMap a) {T : Rgbd.TM ℝ} (hT : T.at' 0 0 = Icp.slide (-2)) {rows : List Fusion.Row}
    (h : ActiveRows P (posed (snap (inY 0) 0) T) (fun b => T.at' b 0) rows) : Icp.onGridOf 2 rows 0 = [⟨0, 0, 0, 0⟩] := by
  have hP : (a .points).getD [] = P := by rw [hw.pts]; rfl
  have hK : (posed (snap (inY 0) 0) T).K 0 = (inY 0).K 0 := ((snap_spec (inY 0) 0).2.2.2.2 0 (by show 0 < 1; norm_num)).2.2.1
  refine rows_unique (h.sorted.sublist List.filter_sublist) (List.pairwise_singleton _ _) fun r => ?_
  rw [Icp.onGridOf, List.mem_filter, h.mem, List.mem_singleton, decide_eq_true_eq]
  have key := chosen_iff hw (ip := posed (snap (inY 0) 0) T) (Q := T.at') (r := r)
  rw [Chosen] at key
  rw [key, ← hP]
  constructor
  · rintro ⟨⟨h1, h2, h3, h4, h5, h6⟩, hb, d1, d2⟩
    rw [hb] at h1 h4 h5 h6
    rw [ha.size] at h1
    obtain ⟨y, x, hy, hx, e⟩ := index_cases h1
    rw [e, seenY hT ha hy hx, hK, projY] at h5 h6
    have e1 := nearestY hy h5
    have e2 := nearestY hx h6
    rcases r with ⟨b, n, hh, w⟩
    have e' : n = 2 * y + x := e
    have e1' : hh = y := e1
    have e2' : w = x := e2
    have d1' : (2 : Int) ∣ (hh : Int) := d1
    have d2' : (2 : Int) ∣ (w : Int) := d2
    have hb : b = 0 := hb
    clear h1 h2 h3 h4 h5 h6 e e1 e2 d1 d2 key
    have : y = 0 := by omega
    have : x = 0 := by omega
    have n0 : n = 0 := by omega
    have h0 : hh = 0 := by omega
    have w0 : w = 0 := by omega
    rw [hb, n0, h0, w0]
  · rintro rfl
    rw [ha.size]
    have hs := seenY (T := T.at') hT ha (y := 0) (x := 0) (by norm_num) (by norm_num)
    simp only [Nat.mul_zero, Nat.add_zero] at hs
    have hp := projY 0 0
    have hn := nearestY' (x := 0) (by norm_num)
    refine ⟨⟨by norm_num, by show 0 < 2; norm_num, by show 0 < 2; norm_num, ?_, ?_, ?_⟩, rfl, by norm_num, by norm_num⟩
    · rw [hs, hK]
      refine ⟨by norm_num, ?_⟩
      rw [hp]
      have e1 : (posed (snap (inY 0) 0) T).H = 2 := rfl
      have e2 : (posed (snap (inY 0) 0) T).W = 2 := rfl
      rw [e1, e2]
      norm_num
    · rw [hs, hK, hp]; exact hn
    · rw [hs, hK, hp]; exact hn

theorem pxY {px : List (Nat × Nat)} (h1 : px.Pairwise Icp.rowMajor)
    (h2 : ∀ h w, (h, w) ∈ px ↔ h < (snap (inY 0) 1).H ∧ w < (snap (inY 0) 1).W ∧ (2 : Int) ∣ (h : Int) ∧ (2 : Int) ∣ (w : Int) ∧ 0 < (snap (inY 0) 1).depth 0 0 h w) : px = [(0, 0)] := by
  refine px_unique h1 (List.pairwise_singleton _ _) fun h w => ?_
  rw [h2, List.mem_singleton, Prod.mk.injEq]
  have eH : (snap (inY 0) 1).H = 2 := rfl
  have eW : (snap (inY 0) 1).W = 2 := rfl
  rw [eH, eW]
  constructor
  · rintro ⟨a1, a2, a3, a4, _⟩; omega
  · rintro ⟨rfl, rfl⟩; exact ⟨by norm_num, by norm_num, by norm_num, by norm_num, snapY_depth 0 0⟩

theorem calm_regY (odom : String) : CalmReg Icp.bruteNN (1 / 10 ^ 6) paramsY odom [⟨0, 0, 1⟩] [⟨0, 0, 0⟩] [⟨0, 0, 1⟩] :=
  ⟨fun _ T d h0 hd htr j hj v w hst => Icp.grad_axis_calm 20 T d h0 hd htr j hj v w hst,
   fun _ T d h0 hd htr j hj v w hst => Icp.icp_axis_calm 20 T d h0 hd htr j hj v w hst⟩

/-- Nothing is on an edge when the second frame is localised. -/
theorem calm_trackY (odom : String) (o : Odom ℝ) : CalmTrack (0 : ℝ) Icp.bruteNN (1 / 10 ^ 6) paramsY odom (sysY o) seqY inY := by
  intro n Ts a hn hnL hr
  obtain rfl : n = 1 := by have : n < 2 := hnL; omega
  obtain ⟨r0, hlen⟩ := hr.self_of_nhds
  obtain ⟨hT, ha⟩ := first_map r0 hlen
  refine ⟨calm_viewY hT ha, fun P maps fr hP q src tgt nrm hs ht hm b hb => ?_⟩
  obtain rfl : b = 0 := by have : b < 1 := hb; omega
  obtain ⟨hw, hl, _⟩ := run_wf (by show 0 < 1; norm_num) r0 P hP
  have hl1 : P.length = 1 := hl
  obtain ⟨Nn, hN⟩ := Option.isSome_iff_exists.1 (run_normals (by show 0 < 1; norm_num) r0 hP)
  obtain ⟨rows, ar, im⟩ := q.maps
  obtain ⟨px, imf, hpx⟩ := q.frames
  obtain ⟨p1, p2⟩ := hpx 0 (by show 0 < 1; norm_num)
  have hpx0 := pxY p1 p2
  have hrows := rowsY hw ha hT ar
  have hlt : ∀ r ∈ rows, r.n < Fusion.sizeAt P r.b := by
    intro r h
    obtain ⟨_, _, p, hp, _⟩ := (ar.mem r).1 h
    exact vecAt_size hp
  rw [(inv_obs im).list] at ht hm
  rw [(inv_obs imf).list] at hs
  have et : some ((List.range P.length).map fun b => (⟨(Icp.onGridOf 2 rows b).map fun r => (Fusion.rowAt P b r.n).getD [], 3⟩ : T2 ℝ)) = some tgt := by
    rw [← ht]; show _ = Option.map _ (a 0 .points); rw [hP]; rfl
  have em : some ((List.range P.length).map fun b => (⟨(Icp.onGridOf 2 rows b).map fun r => (Fusion.rowAt Nn b r.n).getD [], 3⟩ : T2 ℝ)) = some nrm := by
    rw [← hm]; show _ = Option.map _ (a 0 .normals); rw [hN]; rfl
  have es : some ((List.range 1).map fun b => Icp.cloudOf (px b) fun y x => Rgbd.gvertexAt (1 / 10 ^ 6) (posed (snap (inY 0) 1) ((Ts 0).getD 0 (eyes 1))) b 0 y x) = some src := by
    rw [← hs]; rfl
  rw [Option.some_inj] at et em es
  have h0 : 0 < P.length := by omega
  have ha0 := ha.row 0 0 (by norm_num) (by norm_num)
  simp only [Nat.mul_zero, Nat.add_zero] at ha0
  have vt : vecs (tgt.getD 0 ⟨[], 0⟩) = [⟨0, 0, 0⟩] := by
    rw [← et, range_cloud h0, map_cloud hw (by simp) hP hlt, hrows, List.map_singleton, ha0.1, pointY]; simp
  have vn : vecs (nrm.getD 0 ⟨[], 0⟩) = [⟨0, 0, 1⟩] := by
    rw [← em, range_cloud h0, map_cloud hw (by simp) hN hlt, hrows, List.map_singleton, ha0.2]
  have vs : vecs (src.getD 0 ⟨[], 0⟩) = [⟨0, 0, 1⟩] := by
    rw [← es, range_cloud (by norm_num), vecs_cloudOf, hpx0, List.map_singleton, snapY_gvertex (by norm_num) (by norm_num) (by norm_num) hT]; simp
  refine ⟨fun h => ?_, ?_⟩
  · rw [vecs, h] at vt; cases vt
  · rw [vt, vn, vs]; exact calm_regY odom

/-- The hypotheses of C79 are met, with any number of derivatives. -/
theorem slam_smooth_hypotheses (k : WithTop ℕ∞) {odom : String} (hodom : odom ∈ ["icp", "gradicp"]) :
    ∃ o, Made Icp.bruteNN (1 / 10 ^ 6) (1 / 10 ^ 6) Rgbd.nrmR paramsY odom (sysY o) ∧ SmIn k (0 : ℝ) (sysY o).eps inY ∧ (∀ e, SeqOk (sysY o) (seqY e) (inY e)) ∧
      (∀ e, SmallSeq (sysY o) (inY e)) ∧ CalmMap k (0 : ℝ) (sysY o) seqY inY ∧ CalmTrack (0 : ℝ) Icp.bruteNN (1 / 10 ^ 6) paramsY odom (sysY o) seqY inY ∧
      ∀ b < (inY 0).B, SmM4 k (0 : ℝ) fun e => (poseY e).at' b 0 := by
  have h3 : odom ∈ ["gt", "icp", "gradicp"] := List.mem_cons_of_mem _ hodom
  obtain ⟨S, hS⟩ := ((odometry_names Icp.bruteNN (1 / 10 ^ 6) (1 / 10 ^ 6) Rgbd.nrmR (fun _ => 1) (fun _ _ => 1) paramsY odom 1 1 1).2 h3).1
  rw [icpSlam] at hS
  cases ho : odomOf Icp.bruteNN (1 / 10 ^ 6) paramsY odom with
  | error e => rw [ho] at hS; cases hS
  | ok o =>
    refine ⟨o, .inl (by rw [icpSlam, ho]; rfl), inY_smooth k o, fun e => ?_, fun e => .inl rfl, .inl rfl, calm_trackY odom o, fun b _ => ?_⟩
    · exact seqOk_of_hist (S := sysY o) (Rgbd.Hist.new (seqY_new e)) (.inl rfl) (by show 0 < 1; norm_num) (by show 2 ≤ 2; norm_num) (by show 2 ≤ 2; norm_num)
    · have hid : Sm k (0 : ℝ) fun e : ℝ => e := contDiffAt_id
      exact ⟨.const _, ⟨hid, .const _, .const _⟩, .const _, .const _⟩

/-- C79 on the wall: near 0, `ICPSLAM(odom="icp")` and `ICPSLAM(odom="gradicp")` return a map and poses that depend smoothly on the distance of the wall. -/
theorem slam_smooth_wall (k : WithTop ℕ∞) {odom : String} (hodom : odom ∈ ["icp", "gradicp"]) :
    ∃ (o : Odom ℝ) (m : ℝ → PC ℝ) (R : ℝ → Rgbd.TM ℝ), o ≠ .gt ∧ (∀ᶠ e in 𝓝 0, forward (sysY o) (seqY e) = .ok (m e, R e)) ∧
      SmMap k (0 : ℝ) (fun e X => (getList X (m e)).1) ∧ ∀ t < 2, SmM4 k (0 : ℝ) fun e => (R e).at' 0 t := by
  obtain ⟨o, hm, h1, h2, h3, h4, h5, h6⟩ := slam_smooth_hypotheses k hodom
  have hne : odom ≠ "gt" := by rintro rfl; simp at hodom
  obtain ⟨h7, h8⟩ := slam_smooth Icp.bruteNN_nearest (by norm_num) hne hm (by show (1 : Int) ≤ 20; norm_num) (by show (0 : ℝ) < 1 / 10 ^ 8; norm_num)
    (by show (1 : ℝ) < 2; norm_num) (by show (0 : Int) < 2; norm_num) h1 (Eventually.of_forall h2) h3 h4 h5 (.inr ⟨poseY, fun _ => rfl, h6⟩)
  have : Nonempty (PC ℝ × Rgbd.TM ℝ) := by
    obtain ⟨m, R, _⟩ := h7.self_of_nhds
    exact ⟨(m, R)⟩
  obtain ⟨f, hf⟩ := choose_near (h7.mono fun e ⟨m, R, h⟩ => (⟨(m, R), h⟩ : ∃ y : PC ℝ × Rgbd.TM ℝ, forward (sysY o) (seqY e) = .ok y))
  obtain ⟨g1, g2⟩ := h8 (fun e => (f e).1) (fun e => (f e).2) hf
  refine ⟨o, _, _, fun h => ?_, hf, g1, fun t ht => g2 0 (by show 0 < 1; norm_num) t ht⟩
  obtain ⟨ho, _⟩ := made_cases hm
  rcases odom_cases ho with ⟨e, _⟩ | ⟨_, e⟩ | ⟨_, e⟩
  · exact hne e
  · rw [show (sysY o).odom = o from rfl, h] at e; cases e
  · rw [show (sysY o).odom = o from rfl, h] at e; cases e

end Verif.Slam

import Verif.Slam.StaticPose
/-!
C73 and C74: the theorems.
-/
namespace Verif.Slam
open Verif Pcs
set_option linter.unusedSectionVars false
set_option linter.unusedSimpArgs false

/-- The pose a sequence starts at: its first given pose, the identity without poses. -/
noncomputable def firstPose (frames : Rgbd.Obj ℝ) (b : Nat) : M4 ℝ := (frames.poses.map fun P => P.at' b 0).getD M4.one

/-- Specification of "nothing moves": all frames are the same; the first poses are rigid; with ground-truth odometry the given poses are all the same;
measured points project back to the pixels that measured them; and every sequence has a measurement on the grid of the sampling ratio. -/
structure Still (S : Sys ℝ) (frames : Rgbd.Obj ℝ) (i : Rgbd.In ℝ) : Prop where
  same : SameFrames i
  rigid : ∀ b < i.B, (firstPose frames b).Rigid
  given : S.odom = .gt → ∃ P, frames.poses = some P ∧ ∀ b < i.B, ∀ t < i.L, P.at' b t = P.at' b 0
  reprojects : ∀ b < i.B, ∀ x ∈ depthPixels i b 0, Reprojects S i b x.1 x.2
  grid : ∀ b < i.B, ∃ x ∈ depthPixels i b 0, S.ds ∣ (x.1 : Int) ∧ S.ds ∣ (x.2 : Int)

theorem given_still {S : Sys ℝ} {frames : Rgbd.Obj ℝ} {i : Rgbd.In ℝ} (st : Still S frames i) {k : Nat} (hk : k < i.L) (h : S.odom = .gt ∨ k = 0) :
    ∃ T, given frames i k = some T ∧ ∀ b < i.B, T.at' b 0 = firstPose frames b := by
  cases hp : frames.poses with
  | some P =>
    refine ⟨P.sel (List.range i.B) [k], by simp only [given, hp], fun b hb => ?_⟩
    have e : (P.sel (List.range i.B) [k]).at' b 0 = P.at' b k := by simp [Rgbd.TM.sel, hb]
    rw [e, firstPose, hp, Option.map_some, Option.getD_some]
    rcases h with h | rfl
    · obtain ⟨P', hP', e'⟩ := st.given h
      rw [hp] at hP'; cases hP'
      exact e' b hb k hk
    · rfl
  | none =>
    rcases h with h | rfl
    · obtain ⟨P', hP', _⟩ := st.given h
      rw [hp] at hP'; cases hP'
    · refine ⟨eyes i.B, by simp [given, hp], fun b hb => ?_⟩
      rw [firstPose, hp]; rfl

section
variable {nn : List (V3 ℝ) → V3 ℝ → Nat} (hnn : Icp.NearestIn nn) {epsE eps : ℝ} (hE : 0 < epsE) {nrm : V3 ℝ → ℝ} {p : Params} {odom : String}
  {S : Sys ℝ} (h : Made nn epsE eps nrm p odom S) (hit : 1 ≤ p.numiters) (hdamp : 0 < p.damp) (hlm : 1 < p.lambdaMax)
  (hn : Rgbd.IsNorm S.nrm) (hfus : ∀ d t, S.mapper = .fusion d t → 0 < d ∧ 0 ≤ t ∧ t < 1) {frames : Rgbd.Obj ℝ} {i : Rgbd.In ℝ} (hB : 0 < i.B)
  (st : Still S frames i)
include hnn hE h hit hdamp hlm hB st

/-- The pose of the next frame. -/
theorem located_still {Ts : List (Rgbd.TM ℝ)} {a : Clouds ℝ} (r : Run S frames i Ts a) (hl : Ts.length < i.L)
    (hT : ∀ T ∈ Ts, ∀ b < i.B, T.at' b 0 = firstPose frames b)
    (hm : ∀ d t, S.mapper = .fusion d t → Ts ≠ [] → StillMap S i (firstPose frames) Ts.length a) {res : Except Err (Rgbd.TM ℝ)}
    (hloc : Located S frames i Ts a res) : ∃ T, res = .ok T ∧ ∀ b < i.B, T.at' b 0 = firstPose frames b := by
  have hgiven : (S.odom = .gt ∨ Ts.length = 0) → res = ofPoses (given frames i Ts.length) → ∃ T, res = .ok T ∧ ∀ b < i.B, T.at' b 0 = firstPose frames b := by
    intro ho hres
    obtain ⟨T, e, hT⟩ := given_still st hl ho
    exact ⟨T, by rw [hres, e]; rfl, hT⟩
  cases ho : S.odom with
  | gt => exact hgiven (.inl ho) (located_gt (.inl ho) hloc)
  | prov provide =>
    cases hlast : Ts.getLast? with
    | none =>
      have : Ts = [] := List.getLast?_eq_none_iff.1 hlast
      exact hgiven (.inr (by rw [this]; rfl)) (located_gt (.inr this) hloc)
    | some Q =>
      have hne : Ts ≠ [] := by rintro rfl; cases hlast
      rw [Located, ho, hlast] at hloc
      obtain ⟨P, maps, fr, hP, hq, hres⟩ := hloc
      obtain ⟨hw, hPl, _⟩ := run_wf hB r P hP
      obtain ⟨Nn, hN⟩ := Option.isSome_iff_exists.1 (run_normals hB r hP)
      have hcov : Covers S i (firstPose frames) P := by
        cases hmp : S.mapper with
        | aggregate => exact aggregate_covers hmp st.same r hne hl.le hT hP
        | fusion d t => exact still_covers (hm d t hmp hne) hP
      have hQ := hT Q (List.mem_of_getLast? hlast)
      have e := still_answer hnn hE h hit hdamp hlm ho st.same (fun b hb => (st.rigid b hb).2.2) st.reprojects
        (fun b hb => (made_cases h).2.1 ▸ st.grid b hb) hP hN hw hPl hcov hl hQ hq
      refine ⟨composed (List.replicate i.B M4.one) Q, by rw [hres, e]; rfl, fun b hb => ?_⟩
      show Geom.composeTransforms1 ((List.replicate i.B M4.one).getD b M4.one) (Q.at' b 0) = _
      have e1 : (List.replicate i.B (M4.one : M4 ℝ)).getD b M4.one = M4.one := by simp [List.getD_eq_getElem?_getD, hb]
      rw [e1, hQ b hb]
      exact (Geom.compose_monoid _ M4.one M4.one (st.rigid b hb).1).2.1

include hn hfus in
/-- Every run stays where it started, and what the map of `PointFusion` is. -/
theorem run_still {Ts : List (Rgbd.TM ℝ)} {a : Clouds ℝ} (r : Run S frames i Ts a) (hl : Ts.length ≤ i.L) :
    (∀ T ∈ Ts, ∀ b < i.B, T.at' b 0 = firstPose frames b) ∧
    ∀ d t, S.mapper = .fusion d t → Ts ≠ [] → StillMap S i (firstPose frames) Ts.length a := by
  induction r with
  | start => exact ⟨fun T hT => (by cases hT), fun _ _ _ hne => absurd rfl hne⟩
  | @next Ts a T a' r hloc hc ih =>
    rw [List.length_append, List.length_singleton] at hl
    obtain ⟨ih1, ih2⟩ := ih (by omega)
    obtain ⟨T', hT', hG⟩ := located_still hnn hE h hit hdamp hlm hB st r (by omega) ih1 ih2 hloc
    cases hT'
    refine ⟨fun U hU => ?_, fun d t hm _ => ?_⟩
    · rw [List.mem_append, List.mem_singleton] at hU
      rcases hU with hU | rfl
      · exact ih1 U hU
      · exact hG
    · obtain ⟨hd, ht⟩ := hfus d t hm
      unfold MapChange at hc
      rw [hm] at hc; simp only at hc
      rw [List.length_append, List.length_singleton]
      cases hP : a .points with
      | none =>
        have hz : Ts = [] := by by_contra hne; exact (run_empty r).2 hne hP
        rw [hP] at hc; simp only at hc
        subst hz
        rw [hc]; exact still_first hG
      | some P =>
        rw [hP] at hc; simp only at hc
        obtain ⟨U, P', rows, hU, f⟩ := hc
        have hne : Ts ≠ [] := by rintro rfl; rw [(run_empty r).1 rfl] at hP; cases hP
        have hU' : U = T.at' := by
          have : (posed (snap i Ts.length) T).poses = some T.at' := rfl
          rw [this] at hU; cases hU; rfl
        subst hU'
        exact still_step hd ht hn (made_cases h).2.2.2.2 st.same (fun b hb => (st.rigid b hb).2.2) st.reprojects (List.length_pos_iff.2 hne) (by omega) hG
          (ih2 d t hm hne) f

include hn hfus in
theorem still_forward (hds : odom = "gt" ∨ 0 < p.ds) (hi : SmallSeq S i) (hf : SeqOk S frames i) :
    ∃ m R Ts a, forward S frames = .ok (m, R) ∧ Run S frames i Ts a ∧ Ts.length = i.L ∧ MapOk S.mapper i.B m a ∧ R.d0 = i.B ∧ R.d1 = i.L ∧
      (∀ b < i.B, ∀ t < i.L, R.at' b t = firstPose frames b) ∧
      ∀ d t, S.mapper = .fusion d t → 0 < i.L → StillMap S i (firstPose frames) i.L a := by
  rcases forward_run hf (made_sysOk h hds hi).1 with ⟨m, R, Ts, a, e, r, hl, hm, d0, d1, _, hR⟩ | ⟨e, Ts, a, _, r, hl, hloc⟩
  · obtain ⟨h1, h2⟩ := run_still hnn hE h hit hdamp hlm hn hfus hB st r hl.le
    refine ⟨m, R, Ts, a, e, r, hl, hm, d0, d1, fun b hb t ht => ?_, fun d t hmp hL => ?_⟩
    · have hT : Ts[t]? = some Ts[t] := List.getElem?_eq_getElem (by omega)
      rw [hR t _ hT b]
      exact h1 _ (List.mem_of_getElem? hT) b hb
    · have := h2 d t hmp (by rintro rfl; simp at hl; omega)
      rwa [hl] at this
  · obtain ⟨h1, h2⟩ := run_still hnn hE h hit hdamp hlm hn hfus hB st r hl.le
    obtain ⟨T, hT, _⟩ := located_still hnn hE h hit hdamp hlm hB st r hl h1 h2 hloc
    cases hT
end

/-! ### Rows -/

theorem made_thresholds {nn : List (V3 ℝ) → V3 ℝ → Nat} {epsE eps : ℝ} {nrm : V3 ℝ → ℝ} {p : Params} {odom : String} {distTh angleTh sigma : ℝ} {S : Sys ℝ}
    (hS : pointFusion nn epsE eps nrm (fun sigma => Fusion.getAlpha sigma (1 / 10 ^ 7)) p odom distTh angleTh sigma = .ok S) :
    S.nrm = nrm ∧ S.mapper = .fusion distTh (Real.cos (angleTh * Real.pi / 180)) ∧ S.al = gaussWeight sigma ∧ S.eps = eps ∧ S.ds = p.ds := by
  rw [pointFusion] at hS
  cases ho : odomOf nn epsE p odom with
  | error e => rw [ho] at hS; cases hS
  | ok o => rw [ho] at hS; cases hS; exact ⟨rfl, rfl, funext fun v => gaussWeight_eq sigma v, rfl, rfl⟩

theorem made_aggregate {nn : List (V3 ℝ) → V3 ℝ → Nat} {epsE eps : ℝ} {nrm al : V3 ℝ → ℝ} {p : Params} {odom : String} {S : Sys ℝ}
    (hS : icpSlam nn epsE eps nrm al p odom = .ok S) : S.nrm = nrm ∧ S.mapper = .aggregate ∧ S.eps = eps ∧ S.ds = p.ds := by
  rw [icpSlam] at hS
  cases ho : odomOf nn epsE p odom with
  | error e => rw [ho] at hS; cases hS
  | ok o => rw [ho] at hS; cases hS; exact ⟨rfl, rfl, rfl, rfl⟩

theorem cos_range {x : ℝ} (h : 0 < x ∧ x ≤ 90) : 0 ≤ Real.cos (x * Real.pi / 180) ∧ Real.cos (x * Real.pi / 180) < 1 := by
  have hp := Real.pi_pos
  have h0 : 0 < x * Real.pi / 180 := by have := h.1; positivity
  have h1 : x * Real.pi / 180 ≤ Real.pi / 2 := by rw [div_le_iff₀ (by norm_num)]; nlinarith [h.2]
  refine ⟨Real.cos_nonneg_of_neg_pi_div_two_le_of_le (by linarith) h1, ?_⟩
  rw [← Real.cos_zero]
  exact Real.cos_lt_cos_of_nonneg_of_le_pi_div_two le_rfl h1 h0

/-- An attribute list known point by point. -/
theorem attr_of_vec {a : Clouds ℝ} {P l : List (T2 ℝ)} (hw : Wf a P) {X : Attr} (hX : X ≠ .features) (hl : a X = some l) {B : Nat} (hB : P.length = B)
    (g : Nat → List (V3 ℝ)) (h : ∀ b < B, ∀ n : Nat, Fusion.vecAt l b n = (g b)[n]?) : l = (List.range B).map fun b => ⟨(g b).map V3.toList, 3⟩ := by
  obtain ⟨C, hC, h3⟩ := hw.cols X l hl
  have h3 := h3 hX
  subst h3
  have hlen : l.length = B := (hw.length hl).trans hB
  refine cloud_ext (by rw [hlen, List.length_map, List.length_range]) hC (by intro t ht; rw [List.mem_map] at ht; obtain ⟨b, _, rfl⟩ := ht; rfl) fun b n => ?_
  by_cases hb : b < B
  · have e : Fusion.rowAt ((List.range B).map fun b => (⟨(g b).map V3.toList, 3⟩ : T2 ℝ)) b n = (g b)[n]?.map V3.toList := by
      simp only [Fusion.rowAt, List.getElem?_map, List.getElem?_range hb, Option.map_some, Option.bind_some]
    rw [e]
    have hv := h b hb n
    rw [Fusion.vecAt] at hv
    cases hr : Fusion.rowAt l b n with
    | none => rw [hr, Option.map_none] at hv; rw [← hv]; rfl
    | some row =>
      rw [hr, Option.map_some] at hv
      rw [← hv, Option.map_some]
      congr 1
      exact row_of_vec (Fusion.valid_row (hw.valid X l hl) hC hr) rfl rfl
  · simp [Fusion.rowAt, List.getElem?_eq_none (show l.length ≤ b by omega), hb]

/-! ### C73 -/

/-- The objects `ICPSLAM(odom, …)` and `PointFusion(odom, dist_th, angle_th, …)` with a positive distance threshold and an angle threshold of more than 0
and at most 90 degrees. -/
def Sensible (nn : List (V3 ℝ) → V3 ℝ → Nat) (epsE eps : ℝ) (p : Params) (odom : String) (S : Sys ℝ) : Prop :=
  icpSlam nn epsE eps Rgbd.nrmR (Fusion.getAlpha (6 / 10) (1 / 10 ^ 7)) p odom = .ok S ∨
  ∃ distTh angleTh sigma, 0 < distTh ∧ 0 < angleTh ∧ angleTh ≤ 90 ∧
    pointFusion nn epsE eps Rgbd.nrmR (fun sigma => Fusion.getAlpha sigma (1 / 10 ^ 7)) p odom distTh angleTh sigma = .ok S

theorem sensible_made {nn : List (V3 ℝ) → V3 ℝ → Nat} {epsE eps : ℝ} {p : Params} {odom : String} {S : Sys ℝ} (h : Sensible nn epsE eps p odom S) :
    Made nn epsE eps Rgbd.nrmR p odom S ∧ ∀ d t, S.mapper = .fusion d t → 0 < d ∧ 0 ≤ t ∧ t < 1 := by
  rcases h with h | ⟨d, an, sg, h1, h2, h3, h⟩
  · refine ⟨.inl h, fun d t hm => ?_⟩
    rw [(made_aggregate h).2.1] at hm; cases hm
  · refine ⟨.inr ⟨d, an, sg, h⟩, fun d' t' hm => ?_⟩
    rw [(made_thresholds h).2.1] at hm; cases hm
    exact ⟨h1, cos_range ⟨h2, h3⟩⟩

/-- **C73**.  For `ICPSLAM` and `PointFusion` with each of the three odometries, any exact nearest-neighbour search, at least one iteration, positive damping
(and, for gradICP, `lambda_max > 1`), and every batch in which nothing moves: `forward` succeeds, and every returned pose is the pose the sequence
started at. -/
theorem still_camera_stays {nn : List (V3 ℝ) → V3 ℝ → Nat} (hnn : Icp.NearestIn nn) {epsE eps : ℝ} (hE : 0 < epsE) {p : Params} {odom : String} {S : Sys ℝ}
    (h : Sensible nn epsE eps p odom S) (hit : 1 ≤ p.numiters) (hdamp : 0 < p.damp) (hlm : 1 < p.lambdaMax) (hds : odom = "gt" ∨ 0 < p.ds)
    {frames : Rgbd.Obj ℝ} {i : Rgbd.In ℝ} (hi : SmallSeq S i) (hf : SeqOk S frames i) (st : Still S frames i) :
    ∃ m R, forward S frames = .ok (m, R) ∧ R.d0 = i.B ∧ R.d1 = i.L ∧
      ∀ b < i.B, ∀ t < i.L, R.at' b t = (frames.poses.map fun P => P.at' b 0).getD M4.one := by
  obtain ⟨hm, hfus⟩ := sensible_made h
  obtain ⟨m, R, Ts, a, e, _, _, _, d0, d1, hR, _⟩ := still_forward hnn hE hm hit hdamp hlm ((made_cases hm).2.2.1 ▸ Rgbd.nrmR_isNorm) hfus hf.B st hds hi hf
  exact ⟨m, R, e, d0, d1, hR⟩

/-! ### C74 -/

/-- **C74** (`ICPSLAM`).  If nothing moves, the map consists of one copy of the measurements of the first frame per frame. -/
theorem still_icpslam_map {nn : List (V3 ℝ) → V3 ℝ → Nat} (hnn : Icp.NearestIn nn) {epsE eps : ℝ} (hE : 0 < epsE) {p : Params} {odom : String} {S : Sys ℝ}
    (h : icpSlam nn epsE eps Rgbd.nrmR (Fusion.getAlpha (6 / 10) (1 / 10 ^ 7)) p odom = .ok S) (hit : 1 ≤ p.numiters) (hdamp : 0 < p.damp)
    (hlm : 1 < p.lambdaMax) (hds : odom = "gt" ∨ 0 < p.ds) {frames : Rgbd.Obj ℝ} {i : Rgbd.In ℝ} (hL : 0 < i.L) (hf : SeqOk S frames i)
    (st : Still S frames i) :
    ∃ m R, forward S frames = .ok (m, R) ∧ (getList .features m).1 = none ∧ ∀ X, X ≠ .features → (getList X m).1 = some ((List.range i.B).map fun b =>
      ⟨(List.replicate i.L ((depthPixels i b 0).map fun x => (worldValue S i b 0 (firstPose frames b) x X).toList)).flatten, 3⟩) := by
  have hagg := (made_aggregate h).2.1
  have hi : SmallSeq S i := .inl hagg
  obtain ⟨m, R, e, _, _, hR⟩ := still_camera_stays hnn hE (.inl h) hit hdamp hlm hds hi hf st
  obtain ⟨h1, h2⟩ := icpslam_returns_all_pixels hf (made_sysOk (.inl h) hds hi).1 hagg hL e
  refine ⟨m, R, e, h1, fun X hX => ?_⟩
  rw [h2 X hX]
  congr 1
  refine List.map_congr_left fun b hb => ?_
  rw [List.mem_range] at hb
  congr 1
  rw [List.flatMap_def]
  congr 1
  rw [List.eq_replicate_iff]
  refine ⟨by simp, fun y hy => ?_⟩
  rw [List.mem_map] at hy
  obtain ⟨t, ht, rfl⟩ := hy
  rw [List.mem_range] at ht
  have hdp : depthPixels i b t = depthPixels i b 0 := by rw [depthPixels, depthPixels, st.same.depth b hb t ht]
  rw [hdp, hR b hb t ht]
  exact List.map_congr_left fun x _ => by rw [(same_images (S := S) st.same hb ht _).2.2]; rfl

/-- **C74** (`PointFusion`).  If nothing moves, every measured point with a normal is in the map exactly once, with the values measured in the first frame
and the weight of one measurement times the number of frames as confidence; the measured points without a normal are in the map once per frame with
the weight of one measurement each. -/
theorem still_pointfusion_map {nn : List (V3 ℝ) → V3 ℝ → Nat} (hnn : Icp.NearestIn nn) {epsE eps : ℝ} (hE : 0 < epsE) {p : Params} {odom : String}
    {distTh angleTh sigma : ℝ} {S : Sys ℝ}
    (h : pointFusion nn epsE eps Rgbd.nrmR (fun sigma => Fusion.getAlpha sigma (1 / 10 ^ 7)) p odom distTh angleTh sigma = .ok S)
    (hd : 0 < distTh) (ha : 0 < angleTh ∧ angleTh ≤ 90) (hit : 1 ≤ p.numiters) (hdamp : 0 < p.damp)
    (hlm : 1 < p.lambdaMax) (hds : odom = "gt" ∨ 0 < p.ds) {frames : Rgbd.Obj ℝ} {i : Rgbd.In ℝ} (hL : 0 < i.L) (hi : SmallSeq S i) (hf : SeqOk S frames i)
    (st : Still S frames i) :
    ∃ m R, forward S frames = .ok (m, R) ∧
      (∀ X, X ≠ .features → (getList X m).1 = some ((List.range i.B).map fun b =>
        ⟨(stillPixels S i b i.L).map fun x => (worldValue S i b 0 (firstPose frames b) x X).toList, 3⟩)) ∧
      (getList .features m).1 = some ((List.range i.B).map fun b => ⟨(stillPixels S i b i.L).map fun x =>
        [(if Rgbd.normalAt S.nrm S.eps i b 0 x.1 x.2 = V3.zero then 1 else (i.L : ℝ)) * gaussWeight sigma (Rgbd.vertexAt S.eps i b 0 x.1 x.2)], 1⟩) := by
  obtain ⟨hm, hfus⟩ := sensible_made (.inr ⟨distTh, angleTh, sigma, hd, ha.1, ha.2, h⟩)
  obtain ⟨hnrm, hmap, hal, _⟩ := made_thresholds h
  obtain ⟨m, R, Ts, a, e, r, hl, hok, d0, d1, hR, hst⟩ := still_forward hnn hE hm hit hdamp hlm (hnrm ▸ Rgbd.nrmR_isNorm) hfus hf.B st hds hi hf
  have hs := hst _ _ hmap hL
  have o := inv_obs hok.inv
  have hne : Ts ≠ [] := by rintro rfl; simp at hl; omega
  obtain ⟨P, hP⟩ := Option.ne_none_iff_exists'.1 ((run_empty r).2 hne)
  obtain ⟨hw, hPl, _⟩ := run_wf hf.B r P hP
  refine ⟨m, R, e, fun X hX => ?_, ?_⟩
  · obtain ⟨l, hl, hv⟩ := hs.vec X hX
    rw [o.list, hl]
    congr 1
    rw [attr_of_vec hw hX hl hPl (fun b => (stillPixels S i b i.L).map fun x => worldValue S i b 0 (firstPose frames b) x X)
      (fun b hb n => by rw [hv b hb, List.getElem?_map])]
    refine List.map_congr_left fun b _ => ?_
    rw [List.map_map]; rfl
  · obtain ⟨F, hF, hF1, hv⟩ := hs.conf
    rw [o.list, hF]
    congr 1
    refine cloud_ext (by rw [hw.length hF, hPl, List.length_map, List.length_range]) hF1
      (by intro t ht; rw [List.mem_map] at ht; obtain ⟨b, _, rfl⟩ := ht; rfl) fun b n => ?_
    by_cases hb : b < i.B
    · rw [hv b hb]
      simp only [Fusion.rowAt, List.getElem?_map, List.getElem?_range hb, Option.map_some, Option.bind_some, stillConf, hal]
    · simp [Fusion.rowAt, List.getElem?_eq_none (show F.length ≤ b by rw [hw.length hF]; omega), hb]

/-- **C74** (everything has a normal).  Then the map of `PointFusion` is the first frame's map, with confidences multiplied by the number of frames. -/
theorem still_pixels_once {S : Sys ℝ} {i : Rgbd.In ℝ} {b : Nat} (h : ∀ x ∈ depthPixels i b 0, Rgbd.normalAt S.nrm S.eps i b 0 x.1 x.2 ≠ V3.zero) (k : Nat) :
    stillPixels S i b k = depthPixels i b 0 := by
  have : flatPixels S i b = [] := by
    rw [flatPixels, List.filter_eq_nil_iff]
    intro x hx
    simpa using h x hx
  simp [stillPixels, this]

/-! ### When measured points project back to their pixels -/

/-- For a pinhole camera without skew and the default pixel positions, with a focal length large enough that the regularisation `eps` of
`inverse_intrinsics` moves the outermost pixels by less than a thousandth. -/
theorem reprojects_pinhole {S : Sys ℝ} {i : Rgbd.In ℝ} {b y x : Nat} {fx fy cx cy : ℝ} (hx : x < i.W) (hy : y < i.H)
    (hK : i.K b = ⟨⟨⟨fx, 0, cx⟩, ⟨0, fy, cy⟩, ⟨0, 0, 1⟩⟩, V3.zero, V3.zero, 1⟩) (hpix : i.pix b 0 y x = ⟨x, y, 1⟩) (hd : 0 < i.depth b 0 y x)
    (he : 0 ≤ S.eps) (hfx : 0 < fx) (hfy : 0 < fy) (hu : S.eps * |(x : ℝ) - cx| < fx / 1000) (hv : S.eps * |(y : ℝ) - cy| < fy / 1000) :
    Reprojects S i b y x := by
  obtain ⟨q1, q2, q3⟩ := Rgbd.backproj_reprojects (eps := S.eps) (i.K b) (x : ℝ) (y : ℝ) (i.depth b 0 y x) hd (by rw [hK]; show fx + S.eps ≠ 0; linarith)
    (by rw [hK]; show fy + S.eps ≠ 0; linarith)
  have ev : Rgbd.vertexAt S.eps i b 0 y x = Rgbd.backproj S.eps (i.K b) ⟨x, y, 1⟩ (i.depth b 0 y x) := by rw [Rgbd.vertexAt, if_pos hd, hpix]
  rw [← ev] at q1 q2 q3
  unfold Reprojects
  generalize Rgbd.vertexAt S.eps i b 0 y x = v at *
  have hz : v.z ≠ 0 := by rw [q1]; exact ne_of_gt hd
  have hpr : Geom.projectPoint (i.K b) (.inl v) = (fx * v.x / v.z + cx, fy * v.y / v.z + cy) := by
    have := Geom.project_pinhole fx fy cx cy 0 v hz
    have e : Geom.cameraMatrix (Geom.pinhole fx fy cx cy 0) = i.K b := by rw [hK]; rfl
    rw [e] at this
    rw [this]
    refine Prod.ext ?_ ?_ <;> simp only <;> field_simp <;> ring
  rw [hK] at q2 q3
  simp only at q2 q3
  have key : ∀ {f c : ℝ} {k n : Nat}, 0 < f → S.eps * |(k : ℝ) - c| < f / 1000 → k < n → ∀ w, w = (k : ℝ) - S.eps / (f + S.eps) * (k - c) →
      (-1 / 1000 < w ∧ w < (n : ℝ) - 1 + 1 / 1000) ∧ Fusion.Nearest w k := by
    intro f c k n hf hs hk w hw
    have hp : 0 < f + S.eps := by linarith
    have hb : |S.eps / (f + S.eps) * ((k : ℝ) - c)| < 1 / 1000 := by
      rw [abs_mul, abs_of_nonneg (div_nonneg he hp.le), div_mul_eq_mul_div, div_lt_iff₀ hp]
      nlinarith
    have hab := abs_lt.1 hb
    have hk1 : (k : ℝ) + 1 ≤ n := by exact_mod_cast hk
    have hk0 : (0 : ℝ) ≤ k := Nat.cast_nonneg k
    refine ⟨⟨by linarith [hab.2], by linarith [hab.1]⟩, ?_⟩
    have e : |w - k| = |S.eps / (f + S.eps) * ((k : ℝ) - c)| := by rw [hw, ← abs_neg]; congr 1; ring
    refine ⟨by rw [e]; linarith, fun h => ?_⟩
    rw [e] at h; linarith
  obtain ⟨a1, a2⟩ := key hfx hu hx _ q2
  obtain ⟨b1, b2⟩ := key hfy hv hy _ q3
  refine ⟨⟨by rw [q1]; exact hd, ?_, ?_⟩, ?_, ?_⟩ <;> rw [hpr]
  · exact a1
  · exact b1
  · exact b2
  · exact a2

end Verif.Slam

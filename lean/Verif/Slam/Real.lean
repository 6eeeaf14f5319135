import Verif.Slam.Map
import Verif.Fusion.Alpha
/-!
The objects the constructors make: `ICPSLAM(odom=…)` and `PointFusion(odom=…)` over ℝ.
-/
namespace Verif.Slam
open Verif Pcs
set_option linter.unusedSectionVars false
set_option linter.unusedSimpArgs false

/-! ### What registration returns -/

theorem collect_get {β : Type*} {f : Nat → Except Icp.Err β} : ∀ {l : List Nat} {xs : List β}, Icp.collect f l = .ok xs →
    xs.length = l.length ∧ ∀ x ∈ xs, ∃ b ∈ l, f b = .ok x := by
  intro l
  induction l with
  | nil => intro xs h; simp only [Icp.collect, Except.ok.injEq] at h; subst h; simp
  | cons b l ih =>
    intro xs h
    rw [Icp.collect] at h
    cases hb : f b with
    | error e => rw [hb] at h; cases h
    | ok x =>
      rw [hb] at h
      cases hl : Icp.collect f l with
      | error e => simp only [hl] at h; cases h
      | ok ys =>
        simp only [hl, Except.ok.injEq] at h
        subst h
        obtain ⟨h1, h2⟩ := ih hl
        refine ⟨by simp [h1], fun y hy => ?_⟩
        rcases List.mem_cons.1 hy with rfl | hy
        · exact ⟨b, List.mem_cons_self .., hb⟩
        · obtain ⟨c, hc, hf⟩ := h2 y hy
          exact ⟨c, List.mem_cons_of_mem _ hc, hf⟩

section
variable {α : Type*} [Field α] [LinearOrder α] [IsStrictOrderedRing α]

/-- The vectors of cloud `b`. -/
def vecsAt (P : List (T2 α)) (b : Nat) : List (V3 α) := Icp.vecs (P.getD b ⟨[], 0⟩)

/-- A provider answers with one transform per cloud of the frame, each the result of one registration from the identity. -/
theorem provide_answers {icp : List (V3 α) → List (V3 α) → List (V3 α) → Option (M4 α) → Except Icp.Err (M4 α × List Nat)} {maps fr : PC α}
    {ans : List (M4 α)} (h : Icp.provide icp maps fr = .ok ans) :
    (∀ c Q, Inv fr c → c .points = some Q → ans.length = Q.length) ∧
    ∀ T ∈ ans, ∃ src tgt nrm idx, icp src tgt nrm (some M4.one) = .ok (T, idx) := by
  rw [Icp.provide] at h
  cases hN : (getList .normals maps).1 with
  | none => rw [hN] at h; cases h
  | some Nn =>
    rw [hN] at h; simp only at h
    by_cases hB : maps.B ≠ fr.B
    · rw [if_pos hB] at h; cases h
    rw [if_neg hB] at h
    by_cases h0 : maps.B = 0
    · rw [if_pos h0] at h; cases h
    rw [if_neg h0] at h
    cases hQ : (getList .points maps).1 with
    | none => rw [hQ] at h; cases h
    | some Q => cases hP : (getList .points fr).1 with
      | none => rw [hQ, hP] at h; cases h
      | some P =>
        rw [hQ, hP] at h; simp only at h
        obtain ⟨h1, h2⟩ := collect_get h
        refine ⟨fun c R hc hR => ?_, fun T hT => ?_⟩
        · rw [h1, List.length_range, not_not.1 hB, (inv_obs hc).size, count, hR]; rfl
        · obtain ⟨b, _, hb⟩ := h2 T hT
          refine ⟨vecsAt P b, vecsAt Q b, vecsAt Nn b, ?_⟩
          cases hi : icp (vecsAt P b) (vecsAt Q b) (vecsAt Nn b) (some M4.one) with
          | error e => simp only [vecsAt] at hi; rw [hi] at hb; cases hb
          | ok v => simp only [vecsAt] at hi; rw [hi] at hb; simp only [Except.ok.injEq] at hb; subst hb; exact ⟨v.2, rfl⟩
end

theorem loop_affine {f : Icp.State → Except Icp.Err Icp.State} (hf : ∀ s s', f s = .ok s' → s.T.Affine → s'.T.Affine) :
    ∀ (n : Nat) (s s' : Icp.State), Icp.loop f n s = .ok s' → s.T.Affine → s'.T.Affine
  | 0, s, s', h, hs => by simp only [Icp.loop, Except.ok.injEq] at h; exact h ▸ hs
  | n + 1, s, s', h, hs => by
    rw [Icp.loop] at h
    cases h1 : f s with
    | error e => rw [h1] at h; cases h
    | ok u => rw [h1] at h; exact loop_affine hf n u s' h (hf s u h1 hs)

theorem finish_affine {r : Except Icp.Err Icp.State} {T : M4 ℝ} {idx : List Nat} (h : Icp.finish r = .ok (T, idx)) :
    ∃ s, r = .ok s ∧ T = s.T := by
  cases r with
  | error e => cases h
  | ok s =>
    rw [Icp.finish] at h
    cases hi : s.idx with
    | none => rw [hi] at h; cases h
    | some l => rw [hi] at h; simp only [Except.ok.injEq, Prod.mk.injEq] at h; exact ⟨s, rfl, h.1.symm⟩

/-- Every transform `point_to_plane_ICP` returns from an affine start is affine. -/
theorem icp_affine {eps : ℝ} {nn : List (V3 ℝ) → V3 ℝ → Nat} {src tgt nrm : List (V3 ℝ)} {T0 T : M4 ℝ} {n : Int} {damp : ℝ} {th : Option ℝ}
    {idx : List Nat} (h0 : T0.Affine) (h : Icp.pointToPlaneICP eps nn src tgt nrm (some T0) n damp th = .ok (T, idx)) : T.Affine := by
  rw [Icp.pointToPlaneICP] at h
  obtain ⟨s, hs, rfl⟩ := finish_affine h
  refine loop_affine (fun s s' hs ha => ?_) _ _ _ hs h0
  rw [Icp.icpStep] at hs
  cases hl : Icp.lookahead eps nn th tgt nrm s with
  | error e => rw [hl] at hs; cases hs
  | ok v =>
    obtain ⟨xi, err, newErr, one, idx⟩ := v
    rw [hl] at hs; simp only at hs
    by_cases hlt : newErr < err
    · rw [if_pos hlt] at hs; cases hs; exact (Icp.se3_affine _ _ _).mul ha
    · rw [if_neg hlt] at hs; cases hs; exact ha

/-- The same for `point_to_plane_gradICP`. -/
theorem gradicp_affine {eps lmax B B2 nu : ℝ} {nn : List (V3 ℝ) → V3 ℝ → Nat} {src tgt nrm : List (V3 ℝ)} {T0 T : M4 ℝ} {n : Int} {damp : ℝ}
    {th : Option ℝ} {idx : List Nat} (h0 : T0.Affine)
    (h : Icp.pointToPlaneGradICP eps lmax B B2 nu nn src tgt nrm (some T0) n damp th = .ok (T, idx)) : T.Affine := by
  rw [Icp.pointToPlaneGradICP] at h
  obtain ⟨s, hs, rfl⟩ := finish_affine h
  refine loop_affine (fun s s' hs ha => ?_) _ _ _ hs h0
  rw [Icp.gradStep] at hs
  cases hl : Icp.lookahead eps nn th tgt nrm s with
  | error e => rw [hl] at hs; cases hs
  | ok v =>
    obtain ⟨xi, err, newErr, one, idx⟩ := v
    rw [hl] at hs; simp only at hs
    cases hs; exact (Icp.se3_affine _ _ _).mul ha

/-! ### The constructors -/

/-- Objects made by the two constructors: from which odometry name, with which `dist_th` and `dot_th` (none for `ICPSLAM`). -/
def Made (nn : List (V3 ℝ) → V3 ℝ → Nat) (epsE eps : ℝ) (nrm : V3 ℝ → ℝ) (p : Params) (odom : String) (S : Sys ℝ) : Prop :=
  icpSlam nn epsE eps nrm (Fusion.getAlpha (6 / 10) (1 / 10 ^ 7)) p odom = .ok S ∨
  ∃ distTh angleTh sigma, pointFusion nn epsE eps nrm (fun sigma => Fusion.getAlpha sigma (1 / 10 ^ 7)) p odom distTh angleTh sigma = .ok S

/-- C48, C63 (constructors).  An odometry method other than "gt", "icp" and "gradicp" is a ValueError; with these three the constructors
return an object. -/
theorem odometry_names (nn : List (V3 ℝ) → V3 ℝ → Nat) (epsE eps : ℝ) (nrm al : V3 ℝ → ℝ) (al' : ℝ → V3 ℝ → ℝ) (p : Params) (odom : String)
    (distTh angleTh sigma : ℝ) :
    (odom ∉ ["gt", "icp", "gradicp"] → icpSlam nn epsE eps nrm al p odom = .error .valueError ∧
      pointFusion nn epsE eps nrm al' p odom distTh angleTh sigma = .error .valueError) ∧
    (odom ∈ ["gt", "icp", "gradicp"] → (∃ S, icpSlam nn epsE eps nrm al p odom = .ok S) ∧
      ∃ S, pointFusion nn epsE eps nrm al' p odom distTh angleTh sigma = .ok S) := by
  simp only [List.mem_cons, List.not_mem_nil, or_false, not_or]
  refine ⟨fun ⟨h1, h2, h3⟩ => ?_, fun h => ?_⟩
  · have : odomOf nn epsE p odom = .error .valueError := by rw [odomOf, if_neg h1, if_neg h2, if_neg h3]
    rw [icpSlam, pointFusion, this]; exact ⟨rfl, rfl⟩
  · have : ∃ o, odomOf nn epsE p odom = .ok o := by
      rcases h with h | h | h
      · exact ⟨_, by rw [odomOf, if_pos h]⟩
      · exact ⟨_, by rw [odomOf, if_neg (by rw [h]; decide), if_pos h]⟩
      · exact ⟨_, by rw [odomOf, if_neg (by rw [h]; decide), if_neg (by rw [h]; decide), if_pos h]⟩
    obtain ⟨o, ho⟩ := this
    rw [icpSlam, pointFusion, ho]; exact ⟨⟨_, rfl⟩, ⟨_, rfl⟩⟩

theorem made_cases {nn : List (V3 ℝ) → V3 ℝ → Nat} {epsE eps : ℝ} {nrm : V3 ℝ → ℝ} {p : Params} {odom : String} {S : Sys ℝ}
    (h : Made nn epsE eps nrm p odom S) : odomOf nn epsE p odom = .ok S.odom ∧ S.ds = p.ds ∧ S.nrm = nrm ∧ S.eps = eps ∧
      (∀ q, 0 < S.al q) := by
  have al : ∀ sigma q, 0 < Fusion.getAlpha sigma (1 / 10 ^ 7) q := fun sigma q => (Fusion.alpha_range (by norm_num) (by norm_num) q).2.1
  rcases h with h | ⟨d, an, sg, h⟩
  · rw [icpSlam] at h
    cases ho : odomOf nn epsE p odom with
    | error e => rw [ho] at h; cases h
    | ok o => rw [ho] at h; cases h; exact ⟨rfl, rfl, rfl, rfl, al _⟩
  · rw [pointFusion] at h
    cases ho : odomOf nn epsE p odom with
    | error e => rw [ho] at h; cases h
    | ok o => rw [ho] at h; cases h; exact ⟨rfl, rfl, rfl, rfl, al _⟩

theorem odom_cases {nn : List (V3 ℝ) → V3 ℝ → Nat} {epsE : ℝ} {p : Params} {odom : String} {o : Odom ℝ} (h : odomOf nn epsE p odom = .ok o) :
    (odom = "gt" ∧ o = .gt) ∨
    (odom = "icp" ∧ o = .prov (Icp.provide fun src tgt nrm T0 => Icp.pointToPlaneICP epsE nn src tgt nrm T0 p.numiters p.damp p.distThresh)) ∨
    (odom = "gradicp" ∧ o = .prov (Icp.provide fun src tgt nrm T0 =>
      Icp.pointToPlaneGradICP epsE p.lambdaMax p.B p.B2 p.nu nn src tgt nrm T0 p.numiters p.damp p.distThresh)) := by
  rw [odomOf] at h
  by_cases h1 : odom = "gt"
  · rw [if_pos h1] at h; cases h; exact .inl ⟨h1, rfl⟩
  rw [if_neg h1] at h
  by_cases h2 : odom = "icp"
  · rw [if_pos h2] at h; cases h; exact .inr (.inl ⟨h2, rfl⟩)
  rw [if_neg h2] at h
  by_cases h3 : odom = "gradicp"
  · rw [if_pos h3] at h; cases h; exact .inr (.inr ⟨h3, rfl⟩)
  · rw [if_neg h3] at h; cases h

/-- Sizes for which PointFusion's index arithmetic (in float32) is exact. -/
def SmallSeq (S : Sys ℝ) (i : Rgbd.In ℝ) : Prop :=
  S.mapper = .aggregate ∨ (i.B ≤ 2 ^ 24 ∧ i.H ≤ 2 ^ 24 ∧ i.W ≤ 2 ^ 24 ∧ i.L * (i.H * i.W) ≤ 2 ^ 24)

/-- The side conditions of the theorems of C47-C51 hold for the objects the constructors make. -/
theorem made_sysOk {nn : List (V3 ℝ) → V3 ℝ → Nat} {epsE eps : ℝ} {nrm : V3 ℝ → ℝ} {p : Params} {odom : String} {S : Sys ℝ}
    (h : Made nn epsE eps nrm p odom S) (hds : odom = "gt" ∨ 0 < p.ds) {i : Rgbd.In ℝ} (hi : SmallSeq S i) :
    SysOk S i ∧ ∀ provide, S.odom = .prov provide → Ext provide := by
  obtain ⟨ho, hd, _, _, ha⟩ := made_cases h
  have hc := odom_cases ho
  refine ⟨⟨fun hg => ?_, fun provide hp maps fr ans c Q hc' hQ hans => ?_, ?_⟩, fun provide hp => ?_⟩
  · rcases hds with rfl | hds
    · rcases hc with ⟨_, hc⟩ | ⟨hc, _⟩ | ⟨hc, _⟩
      · rw [hc] at hg; cases hg
      · exact absurd hc (by decide)
      · exact absurd hc (by decide)
    · rw [hd]; exact hds
  · rcases hc with ⟨_, hc⟩ | ⟨_, hc⟩ | ⟨_, hc⟩ <;> rw [hc] at hp <;> cases hp <;> exact (provide_answers hans).1 c Q hc' hQ
  · exact hi.imp id fun h => ⟨ha, h⟩
  · rcases hc with ⟨_, hc⟩ | ⟨_, hc⟩ | ⟨_, hc⟩ <;> rw [hc] at hp <;> cases hp <;> exact icp_provide_ext _

/-- **C48**.  For `ICPSLAM` and `PointFusion` with odometry "icp" or "gradicp" and every sequence whose first poses are affine (or missing):
every returned pose is the ordered product of the transforms found for the frames so far, and the first pose. -/
theorem icp_poses_products {nn : List (V3 ℝ) → V3 ℝ → Nat} {epsE eps : ℝ} {nrm : V3 ℝ → ℝ} {p : Params} {odom : String} {S : Sys ℝ}
    (h : Made nn epsE eps nrm p odom S) (hodom : odom ≠ "gt") (hds : 0 < p.ds) {frames : Rgbd.Obj ℝ} {i : Rgbd.In ℝ} (hi : SmallSeq S i)
    (hf : SeqOk S frames i) (hL : 0 < i.L) (h0 : ∀ P, frames.poses = some P → ∀ b < i.B, (P.at' b 0).Affine) {m : PC ℝ} {R : Rgbd.TM ℝ}
    (hfw : forward S frames = .ok (m, R)) :
    ∃ (provide : PC ℝ → PC ℝ → Except Icp.Err (List (M4 ℝ))) (Ts : List (Rgbd.TM ℝ)) (ans : Nat → List (M4 ℝ)), S.odom = .prov provide ∧
      Ts.length = i.L ∧ (∀ (t : Nat) T, Ts[t]? = some T → ∀ b, R.at' b t = T.at' b 0) ∧
      (∀ t, t + 1 < i.L → Asked S provide frames i Ts t (ans t) ∧ (ans t).length = i.B ∧ ∀ T ∈ ans t, T.Affine) ∧
      ∀ b < i.B, ∀ t < i.L, R.at' b t = (orderedProduct (fun s => (ans s).getD b M4.one) t).mul (R.at' b 0) ∧
        R.at' b 0 = (frames.poses.map fun P => P.at' b 0).getD M4.one := by
  obtain ⟨hs, hx⟩ := made_sysOk h (.inr hds) hi
  have hc := odom_cases (made_cases h).1
  have hp : ∃ provide, S.odom = .prov provide ∧ ∀ maps fr ans, provide maps fr = .ok ans → ∀ T ∈ ans, T.Affine := by
    rcases hc with ⟨hc, _⟩ | ⟨_, hc⟩ | ⟨_, hc⟩
    · exact absurd hc hodom
    · refine ⟨_, hc, fun maps fr ans ha T hT => ?_⟩
      obtain ⟨_, _, _, _, he⟩ := (provide_answers ha).2 T hT
      exact icp_affine ⟨rfl, rfl⟩ he
    · refine ⟨_, hc, fun maps fr ans ha T hT => ?_⟩
      obtain ⟨_, _, _, _, he⟩ := (provide_answers ha).2 T hT
      exact gradicp_affine ⟨rfl, rfl⟩ he
  obtain ⟨provide, hS, haff⟩ := hp
  obtain ⟨Ts, ans, hTs, _, _, hR, hfirst, hask, hprod⟩ := poses_are_running_products hf hs hS hfw
  have hA : ∀ b < i.B, ∀ t, t + 1 < i.L → ((ans t).getD b M4.one).Affine := by
    intro b hb t ht
    obtain ⟨⟨_, _, maps, fr, _, _, _, _, _, he⟩, hl, _⟩ := hask t ht
    rw [List.getD_eq_getElem _ _ (by omega)]
    exact haff _ _ _ he _ (List.getElem_mem _)
  refine ⟨provide, Ts, ans, hS, hTs, hR, fun t ht => ?_, fun b hb t ht => ?_⟩
  · obtain ⟨h1, hl, _⟩ := hask t ht
    refine ⟨h1, hl, ?_⟩
    obtain ⟨_, _, maps, fr, _, _, _, _, _, he⟩ := h1
    exact haff _ _ _ he
  have h1 := hfirst hL b hb
  refine ⟨hprod b hb ?_ (hA b hb) t ht, h1⟩
  rw [h1]
  cases hP : frames.poses with
  | none => exact ⟨rfl, rfl⟩
  | some P => exact h0 P hP b hb

/-- **C48** (when tracking fails).  With positive damping, at least one iteration, and (for "gradicp") `lambda_max > 1`, `forward` fails only
if at some frame after the first, some cloud of the map has no point that is seen, from the pose of the previous frame, at a pixel of the
sampling grid. -/
theorem fails_only_if_lost {nn : List (V3 ℝ) → V3 ℝ → Nat} (hnn : Icp.NearestIn nn) {epsE eps : ℝ} {nrm : V3 ℝ → ℝ} {p : Params} {odom : String}
    {S : Sys ℝ} (h : Made nn epsE eps nrm p odom S) (hodom : odom ≠ "gt") (hds : 0 < p.ds) (hit : 1 ≤ p.numiters) (hdamp : 0 < p.damp)
    (hlm : 1 < p.lambdaMax) {frames : Rgbd.Obj ℝ} {i : Rgbd.In ℝ} (hi : SmallSeq S i) (hf : SeqOk S frames i) {e : Err}
    (hfw : forward S frames = .error e) :
    ∃ Ts a P Q b, Run S frames i Ts a ∧ 0 < Ts.length ∧ Ts.length < i.L ∧ Ts.getLast? = some Q ∧ a .points = some P ∧ b < i.B ∧
      ∀ n q (y x : Nat), Fusion.vecAt P b n = some q → y < i.H → x < i.W → p.ds ∣ (y : Int) → p.ds ∣ (x : Int) →
        Fusion.Visible i.H i.W (i.K b) (Fusion.toCamera (Q.at' b 0) q) →
        Fusion.Nearest (Geom.projectPoint (i.K b) (.inl (Fusion.toCamera (Q.at' b 0) q))).2 y →
        ¬ Fusion.Nearest (Geom.projectPoint (i.K b) (.inl (Fusion.toCamera (Q.at' b 0) q))).1 x := by
  obtain ⟨hs, hx⟩ := made_sysOk h (.inr hds) hi
  obtain ⟨ho, hdS, _, _, _⟩ := made_cases h
  have hc := odom_cases ho
  have hp : ∃ provide, S.odom = .prov provide ∧ ∀ (maps fr : PC ℝ) (am af : Clouds ℝ) (P Q Nn : List (T2 ℝ)), Inv maps am → Inv fr af →
      am .points = some Q → am .normals = some Nn → af .points = some P → Q.length = P.length → (∀ t ∈ Q, t.rows ≠ []) →
      ∃ ans, provide maps fr = .ok ans := by
    rcases hc with ⟨hc, _⟩ | ⟨_, hc⟩ | ⟨_, hc⟩
    · exact absurd hc hodom
    · refine ⟨_, hc, fun maps fr am af P Q Nn hm hfr hQ hN hP hl hne => ?_⟩
      obtain ⟨T, hT, _⟩ := Icp.icp_provider hnn epsE (th := p.distThresh) hdamp hit hm hfr hQ hN hP hl hne
      exact ⟨_, hT⟩
    · refine ⟨_, hc, fun maps fr am af P Q Nn hm hfr hQ hN hP hl hne => ?_⟩
      obtain ⟨T, hT, _⟩ := Icp.gradicp_provider (eps := epsE) (B := p.B) (B2 := p.B2) (nu := p.nu) hnn hlm (th := p.distThresh) hdamp hit hm hfr hQ hN hP hl hne
      exact ⟨_, hT⟩
  obtain ⟨provide, hS, hok⟩ := hp
  obtain ⟨Ts, a, P, maps, fr, Q, e', r, hl0, hlL, hQ, hP, hq, herr, _⟩ := forward_fails_only_if_provider_fails hf hs hS hfw
  by_contra hcon
  obtain ⟨rows, ar, im⟩ := hq.maps
  obtain ⟨c, R, hc', hR, hRl⟩ := question_frames hq
  obtain ⟨wf, hPl, _⟩ := run_wf hf.B r P hP
  obtain ⟨Nn, hN⟩ := Option.isSome_iff_exists.1 (run_normals hf.B r hP)
  have hmp : Icp.mapAt a P.length S.ds rows .points = some ((List.range P.length).map fun b =>
      ⟨(Icp.onGridOf S.ds rows b).map fun r => (Fusion.rowAt P b r.n).getD [], 3⟩) := by
    simp only [Icp.mapAt, hP, Option.map_some]
  have hmn : Icp.mapAt a P.length S.ds rows .normals = some ((List.range P.length).map fun b =>
      ⟨(Icp.onGridOf S.ds rows b).map fun r => (Fusion.rowAt Nn b r.n).getD [], 3⟩) := by
    simp only [Icp.mapAt, hN, Option.map_some]
  have hRl' : R.length = i.B := hRl.trans (snap_spec i Ts.length).1
  obtain ⟨ans, hans⟩ := hok maps fr _ _ R _ _ im hc' hmp hmn hR (by rw [List.length_map, List.length_range, hPl, hRl']) (by
    intro t ht hempty
    rw [List.mem_map] at ht
    obtain ⟨b, hb, rfl⟩ := ht
    rw [List.mem_range, hPl] at hb
    simp only [List.map_eq_nil_iff] at hempty
    refine hcon ⟨Ts, a, P, Q, b, r, hl0, hlL, hQ, hP, hb, fun n q y x hv hy hx dy dx vis ny nx => ?_⟩
    have hK : (posed (snap i (Ts.length - 1)) Q).K b = i.K b := ((snap_spec i (Ts.length - 1)).2.2.2.2 b hb).2.2.1
    have hmem : (⟨b, n, y, x⟩ : Fusion.Row) ∈ rows := by
      rw [ar.mem]
      refine ⟨hy, hx, q, hv, ?_, ?_, ?_⟩ <;> simp only [hK] <;> assumption
    have : (⟨b, n, y, x⟩ : Fusion.Row) ∈ Icp.onGridOf S.ds rows b := by
      rw [Icp.onGridOf, List.mem_filter]
      exact ⟨hmem, by rw [hdS]; simp [dy, dx]⟩
    rw [hempty] at this; cases this)
  rw [hans] at herr; cases herr
end Verif.Slam

import Verif.Slam.SmoothMap
/-!
C78: mapping is differentiable.  This file: whole runs of `forward`.
-/
namespace Verif.Slam
open Verif Pcs Topology Filter
open Verif.Icp (Sm SmV SmM3 SmM4)
set_option linter.unusedSectionVars false

variable {E : Type*} [NormedAddCommGroup E] [NormedSpace ℝ E] {k : WithTop ℕ∞} {x0 : E}

/-! ### Specification -/

/-- `Ts` and `a` are the poses and the map of the first `n` frames, for all parameters near `x0`. -/
def RunsNear (x0 : E) (S : Sys ℝ) (frames : E → Rgbd.Obj ℝ) (i : E → Rgbd.In ℝ) (n : Nat) (Ts : E → List (Rgbd.TM ℝ)) (a : E → Clouds ℝ) : Prop :=
  ∀ᶠ e in 𝓝 x0, Run S (frames e) (i e) (Ts e) (a e) ∧ (Ts e).length = n

/-- `T` are the poses of the next frame, for all parameters near `x0`. -/
def LocatedNear (x0 : E) (S : Sys ℝ) (frames : E → Rgbd.Obj ℝ) (i : E → Rgbd.In ℝ) (Ts : E → List (Rgbd.TM ℝ)) (a : E → Clouds ℝ) (T : E → Rgbd.TM ℝ) : Prop :=
  ∀ᶠ e in 𝓝 x0, Located S (frames e) (i e) (Ts e) (a e) (.ok (T e))

/-- Nothing is on an edge when the frames are fused.  (`ICPSLAM` takes no decisions when mapping.) -/
def CalmMap (k : WithTop ℕ∞) (x0 : E) (S : Sys ℝ) (frames : E → Rgbd.Obj ℝ) (i : E → Rgbd.In ℝ) : Prop :=
  S.mapper = .aggregate ∨ ∃ d t, S.mapper = .fusion d t ∧ 0 ≤ t ∧ (∀ p, 0 < S.al p) ∧
    (∀ b < (i x0).B, ∀ l < (i x0).L, ∀ h < (i x0).H, ∀ w < (i x0).W, 0 < (i x0).depth b l h w → SmAt k S.al (Rgbd.vertexAt S.eps (i x0) b l h w)) ∧
    ∀ n Ts a T, 0 < n → n < (i x0).L → RunsNear x0 S frames i n Ts a → LocatedNear x0 S frames i Ts a T →
      CalmFuse S.nrm S.eps d t x0 (fun e => posed (snap (i e) n) (T e)) (fun e => (T e).at') a

/-! ### One more frame -/

theorem SmM4.congr {f g : E → M4 ℝ} (hf : SmM4 k x0 f) (h : g =ᶠ[𝓝 x0] f) : SmM4 k x0 g :=
  ⟨hf.R.congr (h.mono fun e he => by simp only [he]), hf.t.congr (h.mono fun e he => by simp only [he]),
    hf.b.congr (h.mono fun e he => by simp only [he]), hf.s.congr (h.mono fun e he => by simp only [he])⟩


theorem choose_near {β : Type*} [Nonempty β] {p : E → β → Prop} (h : ∀ᶠ e in 𝓝 x0, ∃ y, p e y) : ∃ f : E → β, ∀ᶠ e in 𝓝 x0, p e (f e) := by
  classical
  obtain ⟨y0⟩ := ‹Nonempty β›
  refine ⟨fun e => if h : ∃ y, p e y then h.choose else y0, h.mono fun e h => ?_⟩
  simp only [dif_pos h]
  exact h.choose_spec

/-- A run that knows where the next frame is can go on. -/
theorem run_extend {S : Sys ℝ} {frames : Rgbd.Obj ℝ} {i : Rgbd.In ℝ} (hf : SeqOk S frames i) (hs : SysOk S i) (hx : ∀ provide, S.odom = .prov provide → Ext provide)
    {Ts : List (Rgbd.TM ℝ)} {a : Clouds ℝ} {T : Rgbd.TM ℝ} (r : Run S frames i Ts a) (hl : Ts.length < i.L) (hloc : Located S frames i Ts a (.ok T)) :
    ∃ a', MapChange S (posed (snap i Ts.length) T) a a' := by
  have pass : ∀ {Us b}, Run S frames i Us b → Ts.length < Us.length → ∃ a', MapChange S (posed (snap i Ts.length) T) a a' := by
    intro Us b ru
    induction ru with
    | start => intro h; simp at h
    | @next Us b U b' ru hlu hcu ih =>
      intro hlt
      simp only [List.length_append, List.length_singleton] at hlt
      rcases Nat.lt_or_ge Ts.length Us.length with h | h
      · exact ih h
      · obtain ⟨rfl, rfl⟩ := run_unique hx r ru (by omega)
        have := located_unique hx hlu hloc
        cases this
        exact ⟨b', hcu⟩
  rcases forward_run hf hs with ⟨_, _, Us, b, _, ru, hlu, _⟩ | ⟨e, Us, b, _, ru, _, hle⟩
  · exact pass ru (by omega)
  · rcases Nat.lt_trichotomy Us.length Ts.length with h | h | h
    · exfalso
      have stop : ∀ {Vs c}, Run S frames i Vs c → ¬ Us.length < Vs.length := by
        intro Vs c rv
        induction rv with
        | start => intro h; simp at h
        | @next Vs c V c' rv hlv hcv ih =>
          intro hlt
          simp only [List.length_append, List.length_singleton] at hlt
          rcases Nat.lt_or_ge Us.length Vs.length with h | h
          · exact ih h
          · obtain ⟨rfl, rfl⟩ := run_unique hx ru rv (by omega)
            have := located_unique hx hlv hle
            cases this
      exact stop r h
    · obtain ⟨rfl, rfl⟩ := run_unique hx r ru h
      have := located_unique hx hloc hle
      cases this
    · exact pass ru h

section
variable {S : Sys ℝ} {frames : E → Rgbd.Obj ℝ} {i : E → Rgbd.In ℝ}

theorem snap_dims (i : Rgbd.In ℝ) (n : Nat) : (snap i n).B = i.B ∧ (snap i n).L = 1 ∧ (snap i n).H = i.H ∧ (snap i n).W = i.W :=
  ⟨(snap_spec i n).1, (snap_spec i n).2.1, (snap_spec i n).2.2.1, (snap_spec i n).2.2.2.1⟩

/-- One more frame of a smooth run. -/
theorem step_smooth (hi : SmIn k x0 S.eps i) (hf : ∀ᶠ e in 𝓝 x0, SeqOk S (frames e) (i e)) (hs : ∀ᶠ e in 𝓝 x0, SysOk S (i e))
    (hx : ∀ provide, S.odom = .prov provide → Ext provide) (hn : S.nrm = Rgbd.nrmR) (hc : CalmMap k x0 S frames i) {n : Nat} (hnL : n < (i x0).L)
    {Ts : E → List (Rgbd.TM ℝ)} {a : E → Clouds ℝ} (hr : RunsNear x0 S frames i n Ts a) (ha : SmMap k x0 a) {T : E → Rgbd.TM ℝ} (hT : SmPose k x0 (i x0).B T)
    (hl : LocatedNear x0 S frames i Ts a T) :
    ∃ a', RunsNear x0 S frames i (n + 1) (fun e => Ts e ++ [T e]) a' ∧ SmMap k x0 a' := by
  have hex : ∀ᶠ e in 𝓝 x0, ∃ a', MapChange S (posed (snap (i e) n) (T e)) (a e) a' := by
    filter_upwards [hf, hs, hr, hl] with e hfe hse ⟨hre, hlen⟩ hle
    obtain ⟨a', h⟩ := run_extend hfe hse hx hre (by rw [hlen, (hi.dims e).2.1]; exact hnL) hle
    exact ⟨a', by rw [← hlen]; exact h⟩
  obtain ⟨a', ha'⟩ : ∃ a' : E → Clouds ℝ, ∀ᶠ e in 𝓝 x0, MapChange S (posed (snap (i e) n) (T e)) (a e) (a' e) := choose_near hex
  have hruns : RunsNear x0 S frames i (n + 1) (fun e => Ts e ++ [T e]) a' := by
    filter_upwards [hr, hl, ha'] with e ⟨hre, hlen⟩ hle hce
    exact ⟨hre.next hle (by rw [hlen]; exact hce), by simp [hlen]⟩
  refine ⟨a', hruns, ?_⟩
  obtain ⟨d1, d2, d3, d4⟩ := snap_dims (i x0) n
  have hseq := hf.self_of_nhds
  have hin : SmIn k x0 S.eps fun e => snap (i e) n := snap_smooth hi hnL
  have hB' : 0 < (snap (i x0) n).B := by rw [d1]; exact hseq.B
  have hH' : 2 ≤ (snap (i x0) n).H := by rw [d3]; exact hseq.H
  have hW' : 2 ≤ (snap (i x0) n).W := by rw [d4]; exact hseq.W
  have hT' : SmPose k x0 (snap (i x0) n).B T := by rw [d1]; exact hT
  have hwf : ∀ᶠ e in 𝓝 x0, ∀ P, a e .points = some P → Wf (a e) P ∧ P.length = (snap (i x0) n).B ∧ (S.mapper = .aggregate → MapShape (.aggregate : Mapper ℝ) (snap (i x0) n).B (a e)) := by
    filter_upwards [hf, hr] with e hfe ⟨hre, _⟩ P hP
    have := run_wf hfe.B hre P hP
    rw [(hi.dims e).1] at this
    rw [d1]; exact this
  rcases hc with hm | ⟨d, t, hm, ht, hal, hsal, hcalm⟩
  · refine grow_smooth hin hB' d2 hH' hW' hT' hn ha (hwf.mono fun e h P hP => ⟨(h P hP).1, (h P hP).2.2 hm⟩) (ha'.mono fun e h => ?_)
    unfold MapChange at h; rw [hm] at h; exact h
  · have hsal' : ∀ b < (snap (i x0) n).B, ∀ h < (snap (i x0) n).H, ∀ w < (snap (i x0) n).W, 0 < (snap (i x0) n).depth b 0 h w →
        SmAt k S.al (Rgbd.vertexAt S.eps (snap (i x0) n) b 0 h w) := by
      intro b hb h hh w hw hd
      rw [d1] at hb
      obtain ⟨s1, s2, s3, s4, _⟩ := (snap_spec (i x0) n).2.2.2.2 b hb
      rw [s2] at hd
      have e1 : Rgbd.vertexAt S.eps (snap (i x0) n) b 0 h w = Rgbd.vertexAt S.eps (i x0) b n h w := by simp only [Rgbd.vertexAt, s2, s3, s4]
      rw [e1]; exact hsal b hb n hnL h hh w hw hd
    cases hP0 : a x0 .points with
    | none =>
      have hnone : ∀ᶠ e in 𝓝 x0, a e .points = none := by
        filter_upwards [ha.some .points] with e he
        rw [hP0] at he; simpa using he
      refine first_smooth hin hB' d2 hH' hW' hT' hn hsal' ((ha'.and hnone).mono fun e ⟨h, h0⟩ => ?_)
      unfold MapChange at h; rw [hm] at h; simp only at h; rw [h0] at h; exact h
    | some P0 =>
      have hsome : ∀ᶠ e in 𝓝 x0, ∃ P, a e .points = some P := by
        filter_upwards [ha.some .points] with e he
        rw [hP0] at he; exact Option.isSome_iff_exists.1 he
      have hn0 : 0 < n := by
        rcases Nat.eq_zero_or_pos n with rfl | h
        · exfalso
          obtain ⟨h1, h2⟩ := hr.self_of_nhds
          have : Ts x0 = [] := List.length_eq_zero_iff.1 h2
          rw [this] at h1
          have h3 : a x0 = emptyClouds := by
            generalize hz : ([] : List (Rgbd.TM ℝ)) = Z at h1
            generalize a x0 = A at h1
            cases h1 with
            | start => rfl
            | next => simp at hz
          rw [h3] at hP0; cases hP0
        · exact h
      have hstep : ∀ᶠ e in 𝓝 x0, ∃ rows P P', FusionStep S d t (posed (snap (i e) n) (T e)) (T e).at' (a e) (a' e) P P' rows := by
        filter_upwards [ha', hsome] with e h ⟨P, hP⟩
        unfold MapChange at h; rw [hm] at h; simp only at h; rw [hP] at h
        obtain ⟨U, P', rows, hU, f⟩ := h
        cases hU
        exact ⟨rows, P, P', f⟩
      obtain ⟨rows, hrows⟩ : ∃ rows : E → List Fusion.Row, StepsNear x0 S d t (fun e => snap (i e) n) T a a' rows := choose_near hstep
      have hnear : MapNear x0 (snap (i x0) n).B a := by
        refine ⟨?_⟩
        filter_upwards [hf, hr, hsome, hwf] with e hfe ⟨hre, _⟩ ⟨P, hP⟩ hw
        obtain ⟨Nn, hN⟩ := Option.isSome_iff_exists.1 (run_normals hfe.B hre hP)
        exact ⟨P, Nn, (hw P hP).1, (hw P hP).2.1, hN⟩
      have hcf := hcalm n Ts a T hn0 hnL hr hl
      rw [hn] at hcf
      refine fuse_smooth hin d2 hH' hW' hT' ha hnear hn ht hcf hrows hal hsal' fun b m hbm => ?_
      obtain ⟨_, P, P', f⟩ := hstep.self_of_nhds
      obtain ⟨F, _, hF, _⟩ := f.conf
      have := run_conf hseq.B hal hm hr.self_of_nhds.1 F hF b m (by rw [Fusion.sizeAt_isSome]; rw [hF] at hbm; exact hbm)
      rw [entry, hF]; exact this

/-- Whole runs: if the poses found for a smooth run are smooth, so are the poses and the map of all frames. -/
theorem runs_smooth (hi : SmIn k x0 S.eps i) (hf : ∀ᶠ e in 𝓝 x0, SeqOk S (frames e) (i e)) (hs : ∀ᶠ e in 𝓝 x0, SysOk S (i e))
    (hx : ∀ provide, S.odom = .prov provide → Ext provide) (hn : S.nrm = Rgbd.nrmR) (hc : CalmMap k x0 S frames i)
    (hloc : ∀ n < (i x0).L, ∀ Ts a, RunsNear x0 S frames i n Ts a → SmMap k x0 a → (∀ t < n, SmPose k x0 (i x0).B fun e => (Ts e).getD t (eyes 1)) →
      ∃ T, LocatedNear x0 S frames i Ts a T ∧ SmPose k x0 (i x0).B T) :
    ∀ n ≤ (i x0).L, ∃ Ts a, RunsNear x0 S frames i n Ts a ∧ SmMap k x0 a ∧ ∀ t < n, SmPose k x0 (i x0).B fun e => (Ts e).getD t (eyes 1) := by
  intro n
  induction n with
  | zero =>
    intro _
    refine ⟨fun _ => [], fun _ => emptyClouds, Eventually.of_forall fun e => ⟨.start, rfl⟩, ⟨fun X => Eventually.of_forall fun _ => rfl, fun X b => Eventually.of_forall fun _ => rfl, fun X b n c => ?_⟩,
      fun t ht => absurd ht (by omega)⟩
    exact Sm.const _
  | succ n ih =>
    intro hnL
    obtain ⟨Ts, a, hr, ha, hT⟩ := ih (by omega)
    obtain ⟨T, hl, hTs⟩ := hloc n (by omega) Ts a hr ha hT
    obtain ⟨a', hr', ha'⟩ := step_smooth hi hf hs hx hn hc (by omega) hr ha hTs hl
    refine ⟨_, a', hr', ha', fun t ht b hb => ?_⟩
    rcases Nat.lt_or_ge t n with h | h
    · refine SmM4.congr (hT t h b hb) ?_
      filter_upwards [hr] with e ⟨_, hlen⟩
      simp [List.getElem?_append_left (show t < (Ts e).length by omega)]
    · obtain rfl : t = n := by omega
      refine SmM4.congr (hTs b hb) ?_
      filter_upwards [hr] with e ⟨_, hlen⟩
      simp [← hlen]

/-- From runs to the results of `forward`. -/
theorem forward_smooth (hi : SmIn k x0 S.eps i) (hf : ∀ᶠ e in 𝓝 x0, SeqOk S (frames e) (i e)) (hs : ∀ᶠ e in 𝓝 x0, SysOk S (i e))
    (hx : ∀ provide, S.odom = .prov provide → Ext provide) {Ts : E → List (Rgbd.TM ℝ)} {a : E → Clouds ℝ} (hr : RunsNear x0 S frames i (i x0).L Ts a) (ha : SmMap k x0 a)
    (hT : ∀ t < (i x0).L, SmPose k x0 (i x0).B fun e => (Ts e).getD t (eyes 1)) :
    (∀ᶠ e in 𝓝 x0, ∃ m R, forward S (frames e) = .ok (m, R)) ∧
    ∀ (m : E → PC ℝ) (R : E → Rgbd.TM ℝ), (∀ᶠ e in 𝓝 x0, forward S (frames e) = .ok (m e, R e)) →
      SmMap k x0 (fun e X => (getList X (m e)).1) ∧ ∀ b < (i x0).B, ∀ t < (i x0).L, SmM4 k x0 fun e => (R e).at' b t := by
  have hall : ∀ᶠ e in 𝓝 x0, ∃ m R, forward S (frames e) = .ok (m, R) ∧ (∀ X, (getList X m).1 = a e X) ∧ ∀ b, ∀ t < (i x0).L, R.at' b t = ((Ts e).getD t (eyes 1)).at' b 0 := by
    filter_upwards [hf, hs, hr] with e hfe hse ⟨hre, hlen⟩
    rcases forward_run hfe hse with ⟨m, R, Us, b, e1, ru, hlu, hm, _, _, _, hR⟩ | ⟨er, Us, b, _, ru, hlu, hle⟩
    · obtain ⟨rfl, rfl⟩ := run_unique hx hre ru (by rw [hlu, hlen, (hi.dims e).2.1])
      refine ⟨m, R, e1, fun X => (inv_obs hm.inv).list X, fun b t ht => ?_⟩
      have hlt : t < (Ts e).length := by rw [hlen]; exact ht
      rw [hR t _ (List.getElem?_eq_getElem hlt) b, List.getD_eq_getElem _ _ hlt]
    · exfalso
      have stop : ∀ {Vs c}, Run S (frames e) (i e) Vs c → ¬ Us.length < Vs.length := by
        intro Vs c rv
        induction rv with
        | start => intro h; simp at h
        | @next Vs c V c' rv hlv hcv ih =>
          intro hlt
          simp only [List.length_append, List.length_singleton] at hlt
          rcases Nat.lt_or_ge Us.length Vs.length with h | h
          · exact ih h
          · obtain ⟨rfl, rfl⟩ := run_unique hx ru rv (by omega)
            have := located_unique hx hlv hle
            cases this
      exact stop hre (by rw [hlen, ← (hi.dims e).2.1]; exact hlu)
  refine ⟨hall.mono fun e ⟨m, R, h, _⟩ => ⟨m, R, h⟩, fun m R hmR => ?_⟩
  have hboth : ∀ᶠ e in 𝓝 x0, (∀ X, (getList X (m e)).1 = a e X) ∧ ∀ b, ∀ t < (i x0).L, (R e).at' b t = ((Ts e).getD t (eyes 1)).at' b 0 := by
    filter_upwards [hall, hmR] with e ⟨m', R', h1, h2, h3⟩ h4
    rw [h1] at h4; cases h4
    exact ⟨h2, h3⟩
  have h0 := hboth.self_of_nhds
  refine ⟨⟨fun X => ?_, fun X b => ?_, fun X b n c => ?_⟩, fun b hb t ht => ?_⟩
  · filter_upwards [hboth, ha.some X] with e he hs; rw [he.1, h0.1]; exact hs
  · filter_upwards [hboth, ha.size X b] with e he hs; rw [he.1, h0.1]; exact hs
  · exact (ha.entries X b n c).congr (hboth.mono fun e he => by show entry (getList X (m e)).1 b n c = _; rw [he.1])
  · exact SmM4.congr (hT t ht b hb) (hboth.mono fun e he => he.2 b t ht)

/-- **C78**.  With ground-truth poses, `ICPSLAM` and `PointFusion` succeed near `x0`, and every number in the returned map and poses is a differentiable function
of colours, depths, intrinsics and poses, wherever no decision is on an edge. -/
theorem mapping_smooth (hi : SmIn k x0 S.eps i) (hf : ∀ᶠ e in 𝓝 x0, SeqOk S (frames e) (i e)) (hs : ∀ᶠ e in 𝓝 x0, SysOk S (i e))
    (hgt : S.odom = .gt) (hn : S.nrm = Rgbd.nrmR) (hc : CalmMap k x0 S frames i) {P : E → Rgbd.TM ℝ} (hP : ∀ e, (frames e).poses = some (P e))
    (hPs : ∀ b < (i x0).B, ∀ t < (i x0).L, SmM4 k x0 fun e => (P e).at' b t) :
    (∀ᶠ e in 𝓝 x0, ∃ m R, forward S (frames e) = .ok (m, R)) ∧
    ∀ (m : E → PC ℝ) (R : E → Rgbd.TM ℝ), (∀ᶠ e in 𝓝 x0, forward S (frames e) = .ok (m e, R e)) →
      SmMap k x0 (fun e X => (getList X (m e)).1) ∧ ∀ b < (i x0).B, ∀ t < (i x0).L, SmM4 k x0 fun e => (R e).at' b t := by
  have hx : ∀ provide, S.odom = .prov provide → Ext provide := fun p h => by rw [hgt] at h; cases h
  obtain ⟨Ts, a, hr, ha, hT⟩ := runs_smooth hi hf hs hx hn hc (fun n hnL Ts a hr _ _ => by
    refine ⟨fun e => (P e).sel (List.range (i e).B) [n], ?_, fun b hb => ?_⟩
    · filter_upwards [hr] with e ⟨_, hlen⟩
      rw [Located, hgt]
      show _ = ofPoses (given (frames e) (i e) (Ts e).length)
      rw [given, hP e, hlen]; rfl
    · refine SmM4.congr (hPs b hb n hnL) (Eventually.of_forall fun e => ?_)
      have hb' : b < (i e).B := by rw [(hi.dims e).1]; exact hb
      simp [Rgbd.TM.sel, hb']) (i x0).L le_rfl
  exact forward_smooth hi hf hs hx hr ha hT

end
end Verif.Slam

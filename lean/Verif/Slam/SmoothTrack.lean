import Verif.Slam.SmoothRun
import Verif.Icp.SmoothRun
import Verif.Slam.Real
/-!
C79: localisation by ICP or gradICP is differentiable, and so is the whole of `forward` with these odometries.
-/
namespace Verif.Slam
open Verif Pcs Topology Filter
open Verif.Icp (Sm SmV SmM3 SmM4 SmL vecs)
set_option linter.unusedSectionVars false

variable {E : Type*} [NormedAddCommGroup E] [NormedSpace ℝ E] {k : WithTop ℕ∞} {x0 : E}

/-! ### Specification -/

/-- No decision of a registration by gradICP of the points `src` to the points `tgt` with normals `nrm`, from the identity, is on an edge. -/
def CalmGrad (nn : List (V3 ℝ) → V3 ℝ → Nat) (eps : ℝ) (p : Params) (src tgt nrm : List (V3 ℝ)) : Prop :=
  ∀ T d, T 0 = M4.one → d 0 = p.damp → Icp.GradTrace nn p.distThresh tgt nrm eps p.lambdaMax p.B p.B2 p.nu src p.numiters.toNat T d → ∀ j < p.numiters.toNat, ∀ v w,
    Icp.IsStep nn p.distThresh tgt nrm (d j) (Geom.transformPointcloud (T j) src) v w →
    Icp.GradCalm eps p.B2 p.nu p.distThresh tgt (Geom.transformPointcloud (T j) src) (Geom.transformPointcloud ((Geom.se3Exp eps v w).mul (T j)) src) w
      (Icp.planeErr nn p.distThresh tgt nrm (Geom.transformPointcloud ((Geom.se3Exp eps v w).mul (T j)) src) -
        Icp.planeErr nn p.distThresh tgt nrm (Geom.transformPointcloud (T j) src))

/-- The same for ICP: in addition no step leaves the error exactly unchanged. -/
def CalmLM (nn : List (V3 ℝ) → V3 ℝ → Nat) (eps : ℝ) (p : Params) (src tgt nrm : List (V3 ℝ)) : Prop :=
  ∀ T d, T 0 = M4.one → d 0 = p.damp → Icp.LMTrace nn p.distThresh tgt nrm eps src p.numiters.toNat T d → ∀ j < p.numiters.toNat, ∀ v w,
    Icp.IsStep nn p.distThresh tgt nrm (d j) (Geom.transformPointcloud (T j) src) v w →
    Icp.Calm eps p.distThresh tgt (Geom.transformPointcloud (T j) src) (Geom.transformPointcloud ((Geom.se3Exp eps v w).mul (T j)) src) w ∧
    Icp.planeErr nn p.distThresh tgt nrm (Geom.transformPointcloud ((Geom.se3Exp eps v w).mul (T j)) src) ≠
      Icp.planeErr nn p.distThresh tgt nrm (Geom.transformPointcloud (T j) src)

/-- The registration method named `odom` is calm. -/
def CalmReg (nn : List (V3 ℝ) → V3 ℝ → Nat) (eps : ℝ) (p : Params) (odom : String) (src tgt nrm : List (V3 ℝ)) : Prop :=
  (odom = "gradicp" → CalmGrad nn eps p src tgt nrm) ∧ (odom = "icp" → CalmLM nn eps p src tgt nrm)

/-- No map point seen from the camera at `T` is on an edge: in the plane of the camera, on the border of the picture, or halfway between two pixels. -/
structure CalmView (x0 : E) (i : E → Rgbd.In ℝ) (T : E → Nat → Nat → M4 ℝ) (a : E → Clouds ℝ) : Prop where
  proj : ∀ b n, n < Fusion.sizeAt ((a x0 .points).getD []) b → (seenFrom (T x0) (a x0) b n).z < 0 ∨
    (((i x0).K b).mulVec ⟨seenFrom (T x0) (a x0) b n, 1⟩).v.z ≠ 0 ∧ 0 < (seenFrom (T x0) (a x0) b n).z ∧
    OffEdge (Geom.projectPoint ((i x0).K b) (.inl (seenFrom (T x0) (a x0) b n))).1 (i x0).W ∧
    OffEdge (Geom.projectPoint ((i x0).K b) (.inl (seenFrom (T x0) (a x0) b n))).2 (i x0).H
  pixel : ∀ b n, n < Fusion.sizeAt ((a x0 .points).getD []) b → Fusion.Visible (i x0).H (i x0).W ((i x0).K b) (seenFrom (T x0) (a x0) b n) →
    ∀ m : Nat, |(Geom.projectPoint ((i x0).K b) (.inl (seenFrom (T x0) (a x0) b n))).1 - m| ≠ 1 / 2 ∧
      |(Geom.projectPoint ((i x0).K b) (.inl (seenFrom (T x0) (a x0) b n))).2 - m| ≠ 1 / 2

/-- Nothing is on an edge when the frames are localised: the choice of map points, and every registration; and some map point is chosen in every cloud. -/
def CalmTrack (x0 : E) (nn : List (V3 ℝ) → V3 ℝ → Nat) (epsE : ℝ) (p : Params) (odom : String) (S : Sys ℝ) (frames : E → Rgbd.Obj ℝ) (i : E → Rgbd.In ℝ) : Prop :=
  ∀ n Ts a, 0 < n → n < (i x0).L → RunsNear x0 S frames i n Ts a →
    CalmView x0 (fun e => snap (i e) (n - 1)) (fun e => ((Ts e).getD (n - 1) (eyes 1)).at') a ∧
    ∀ P maps fr, a x0 .points = some P →
      Question S (a x0) P (snap (i x0) n) (posed (snap (i x0) (n - 1)) ((Ts x0).getD (n - 1) (eyes 1))) ((Ts x0).getD (n - 1) (eyes 1)) maps fr →
      ∀ src tgt nrm, (getList .points fr).1 = some src → (getList .points maps).1 = some tgt → (getList .normals maps).1 = some nrm → ∀ b < (i x0).B,
        (tgt.getD b ⟨[], 0⟩).rows ≠ [] ∧ CalmReg nn epsE p odom (vecs (src.getD b ⟨[], 0⟩)) (vecs (tgt.getD b ⟨[], 0⟩)) (vecs (nrm.getD b ⟨[], 0⟩))

/-! ### Registration -/

/-- What is used of the registration: smooth clouds that are calm at `x0` give smooth transforms. -/
def SmoothReg (k : WithTop ℕ∞) (x0 : E) (icp : List (V3 ℝ) → List (V3 ℝ) → List (V3 ℝ) → Option (M4 ℝ) → Except Icp.Err (M4 ℝ × List Nat))
    (calm : List (V3 ℝ) → List (V3 ℝ) → List (V3 ℝ) → Prop) : Prop :=
  ∀ (M N : Nat) (src tgt nrm : E → List (V3 ℝ)), 0 < M → SmL k x0 N src → SmL k x0 M tgt → SmL k x0 M nrm → calm (src x0) (tgt x0) (nrm x0) →
    ∃ (T : E → M4 ℝ) (idx : List Nat), SmM4 k x0 T ∧ ∀ᶠ e in 𝓝 x0, icp (src e) (tgt e) (nrm e) (some M4.one) = .ok (T e, idx)

theorem smoothReg_of {nn : List (V3 ℝ) → V3 ℝ → Nat} (hn : Icp.NearestIn nn) {epsE : ℝ} (hE : 0 < epsE) {p : Params} (hit : 1 ≤ p.numiters) (hdamp : 0 < p.damp)
    (hlm : 1 < p.lambdaMax) {odom : String} {o : Odom ℝ} (ho : odomOf nn epsE p odom = .ok o) :
    o = .gt ∨ ∃ icp, o = .prov (Icp.provide icp) ∧ SmoothReg k x0 icp (CalmReg nn epsE p odom) := by
  rcases odom_cases ho with ⟨_, h⟩ | ⟨h1, h⟩ | ⟨h1, h⟩
  · exact .inl h
  · refine .inr ⟨_, h, fun M N src tgt nrm hM hs ht hm hc => ?_⟩
    exact Icp.icp_smooth hn hM ht hm hs (T0 := fun _ => M4.one) (.const _) ⟨rfl, rfl⟩ (damp := fun _ => p.damp) (.const _) hdamp hE hit (hc.2 h1)
  · refine .inr ⟨_, h, fun M N src tgt nrm hM hs ht hm hc => ?_⟩
    exact Icp.gradicp_smooth hn hM ht hm hs (T0 := fun _ => M4.one) (.const _) ⟨rfl, rfl⟩ (damp := fun _ => p.damp) (.const _) hdamp hE hlm hit (hc.1 h1)

/-! ### The clouds that are registered -/

theorem smL_map {β : Type*} (l : List β) {f : E → β → V3 ℝ} (h : ∀ x ∈ l, SmV k x0 fun e => f e x) : SmL k x0 l.length fun e => l.map (f e) := by
  refine ⟨fun e => by simp, fun j hj => ?_⟩
  have e1 : ∀ e, (l.map (f e)).getD j V3.zero = f e l[j] := fun e => by simp [hj]
  simp only [e1]
  exact h _ (List.getElem_mem hj)

theorem vecs_cloudOf (px : List (Nat × Nat)) (f : Nat → Nat → V3 ℝ) : vecs (Icp.cloudOf px f) = px.map fun x => f x.1 x.2 := by
  simp [vecs, Icp.cloudOf, V3.toList, Fusion.toV3]

/-- The table of a question, for one row. -/
def Chosen (P : List (T2 ℝ)) (ip : Rgbd.In ℝ) (Q : Nat → M4 ℝ) (r : Fusion.Row) : Prop :=
  r.h < ip.H ∧ r.w < ip.W ∧ ∃ p, Fusion.vecAt P r.b r.n = some p ∧
    Fusion.Visible ip.H ip.W (ip.K r.b) (Fusion.toCamera (Q r.b) p) ∧
    Fusion.Nearest (Geom.projectPoint (ip.K r.b) (.inl (Fusion.toCamera (Q r.b) p))).2 r.h ∧
    Fusion.Nearest (Geom.projectPoint (ip.K r.b) (.inl (Fusion.toCamera (Q r.b) p))).1 r.w

theorem chosen_iff {c : Clouds ℝ} {P : List (T2 ℝ)} (hw : Wf c P) {ip : Rgbd.In ℝ} {Q : Nat → Nat → M4 ℝ} {r : Fusion.Row} :
    Chosen P ip (fun b => Q b 0) r ↔ r.n < Fusion.sizeAt P r.b ∧ r.h < ip.H ∧ r.w < ip.W ∧ Fusion.Visible ip.H ip.W (ip.K r.b) (seenFrom Q c r.b r.n) ∧
      Fusion.Nearest (Geom.projectPoint (ip.K r.b) (.inl (seenFrom Q c r.b r.n))).2 r.h ∧ Fusion.Nearest (Geom.projectPoint (ip.K r.b) (.inl (seenFrom Q c r.b r.n))).1 r.w := by
  have v : ∀ {b n}, n < Fusion.sizeAt P b → Fusion.vecAt P b n = some (vec (c .points) b n) := fun h => vec_some hw (by simp) hw.pts h
  constructor
  · rintro ⟨h1, h2, p, hp, h3, h4, h5⟩
    have hlt := vecAt_size hp
    rw [v hlt] at hp; cases hp
    exact ⟨hlt, h1, h2, h3, h4, h5⟩
  · rintro ⟨h0, h1, h2, h3, h4, h5⟩
    exact ⟨h1, h2, _, v h0, h3, h4, h5⟩

section
variable {S : Sys ℝ} {frames : E → Rgbd.Obj ℝ} {i : E → Rgbd.In ℝ} {a : E → Clouds ℝ} {Q : E → Rgbd.TM ℝ}

/-- Near `x0` the same map points are chosen. -/
theorem chosen_const {eps : ℝ} (hi : SmIn k x0 eps i) (hQ : SmPose k x0 (i x0).B Q) (ha : SmMap k x0 a)
    {P : E → List (T2 ℝ)} (hw : ∀ᶠ e in 𝓝 x0, Wf (a e) (P e) ∧ (P e).length = (i x0).B) (hc : CalmView x0 i (fun e => (Q e).at') a) :
    ∀ᶠ e in 𝓝 x0, ∀ r, (Chosen (P e) (i e) (fun b => (Q e).at' b 0) r ↔ Chosen (P x0) (i x0) (fun b => (Q x0).at' b 0) r) := by
  obtain ⟨hw0, hl0⟩ := hw.self_of_nhds
  have hp0 : (a x0 .points).getD [] = P x0 := by rw [hw0.pts]; rfl
  have hsize : ∀ᶠ e in 𝓝 x0, ∀ b < (i x0).B, Fusion.sizeAt (P e) b = Fusion.sizeAt (P x0) b := by
    refine ev_lt fun b _ => ?_
    filter_upwards [ha.size .points b, hw] with e he ⟨hwe, _⟩
    rw [hwe.pts, hw0.pts] at he; exact he
  have hst : ∀ᶠ e in 𝓝 x0, ∀ b < (i x0).B, ∀ n < Fusion.sizeAt (P x0) b, ∀ h < (i x0).H, ∀ w < (i x0).W,
      ((Fusion.Visible (i x0).H (i x0).W ((i e).K b) (seenFrom (Q e).at' (a e) b n) ∧
        Fusion.Nearest (Geom.projectPoint ((i e).K b) (.inl (seenFrom (Q e).at' (a e) b n))).2 h ∧ Fusion.Nearest (Geom.projectPoint ((i e).K b) (.inl (seenFrom (Q e).at' (a e) b n))).1 w) ↔
       (Fusion.Visible (i x0).H (i x0).W ((i x0).K b) (seenFrom (Q x0).at' (a x0) b n) ∧
        Fusion.Nearest (Geom.projectPoint ((i x0).K b) (.inl (seenFrom (Q x0).at' (a x0) b n))).2 h ∧ Fusion.Nearest (Geom.projectPoint ((i x0).K b) (.inl (seenFrom (Q x0).at' (a x0) b n))).1 w)) := by
    refine ev_lt fun b hb => ev_lt fun n hn => ev_lt fun h hh => ev_lt fun w hw => ?_
    have hX := seenFrom_smooth ha hQ hb n
    have hK := hi.K b hb
    refine Stable.iff (p := fun e => Fusion.Visible (i x0).H (i x0).W ((i e).K b) (seenFrom (Q e).at' (a e) b n) ∧
        Fusion.Nearest (Geom.projectPoint ((i e).K b) (.inl (seenFrom (Q e).at' (a e) b n))).2 h ∧ Fusion.Nearest (Geom.projectPoint ((i e).K b) (.inl (seenFrom (Q e).at' (a e) b n))).1 w) ?_
    rw [← hp0] at hn
    rcases hc.proj b n hn with hz | ⟨h0, hz, ho1, ho2⟩
    · refine .inr ((hX.z.continuousAt.eventually_lt continuousAt_const hz).mono fun e he h => ?_)
      exact absurd h.1.1 (not_lt.2 he.le)
    · obtain ⟨p1, p2⟩ := proj_smooth hK hX h0
      refine (visible_stable hK hX h0 hz.ne' ho1 ho2).and fun hv => ?_
      exact (nearest_stable p2.continuousAt (hc.pixel b n hn hv h).2).and fun _ => nearest_stable p1.continuousAt (hc.pixel b n hn hv w).1
  have hin : ∀ {L : List (T2 ℝ)}, L.length = (i x0).B → ∀ {b n}, n < Fusion.sizeAt L b → b < (i x0).B := by
    intro L hL b n hn
    by_contra hb
    rw [← Fusion.sizeAt_isSome] at hn
    simp [Fusion.rowAt, List.getElem?_eq_none (show L.length ≤ b by omega)] at hn
  filter_upwards [hw, hsize, hst] with e ⟨hwe, hle⟩ hse hste r
  obtain ⟨_, _, d3, d4⟩ := hi.dims e
  rw [chosen_iff hwe, chosen_iff hw0, d3, d4]
  constructor
  · rintro ⟨h1, h2, h3, h4⟩
    have hb := hin hle h1
    rw [hse _ hb] at h1
    exact ⟨h1, h2, h3, (hste _ hb _ h1 _ h2 _ h3).1 h4⟩
  · rintro ⟨h1, h2, h3, h4⟩
    have hb := hin hl0 h1
    exact ⟨by rw [hse _ hb]; exact h1, h2, h3, (hste _ hb _ h1 _ h2 _ h3).2 h4⟩

/-- The chosen map points (or their normals) as a list of vectors. -/
theorem map_cloud {c : Clouds ℝ} {P : List (T2 ℝ)} (hw : Wf c P) {X : Attr} (hX : X ≠ .features) {l : List (T2 ℝ)} (hl : c X = some l) {rows : List Fusion.Row}
    (hr : ∀ r ∈ rows, r.n < Fusion.sizeAt P r.b) (ds : Int) (b : Nat) :
    vecs (⟨(Icp.onGridOf ds rows b).map fun r => (Fusion.rowAt l b r.n).getD [], 3⟩ : T2 ℝ) = (Icp.onGridOf ds rows b).map fun r => vec (c X) b r.n := by
  rw [vecs, List.map_map]
  refine List.map_congr_left fun r h => ?_
  rw [Icp.onGridOf, List.mem_filter, decide_eq_true_eq] at h
  obtain ⟨h1, rfl, _⟩ := h
  have hv := vec_some hw hX hl (by rw [Fusion.sizeAt_sizes (hw.rows _ _ hl)]; exact hr r h1)
  cases hrow : Fusion.rowAt l r.b r.n with
  | none => simp [Fusion.vecAt, hrow] at hv
  | some row =>
    simp only [Fusion.vecAt, hrow, Option.map_some, Option.some_inj] at hv
    simp [Function.comp, hrow, hv]

/-- A run can always try to localise the next frame. -/
theorem run_located {S : Sys ℝ} {frames : Rgbd.Obj ℝ} {i : Rgbd.In ℝ} (hf : SeqOk S frames i) (hs : SysOk S i) (hx : ∀ provide, S.odom = .prov provide → Ext provide)
    {Ts : List (Rgbd.TM ℝ)} {a : Clouds ℝ} (r : Run S frames i Ts a) (hl : Ts.length < i.L) : ∃ res, Located S frames i Ts a res := by
  have pass : ∀ {Us b}, Run S frames i Us b → Ts.length < Us.length → ∃ res, Located S frames i Ts a res := by
    intro Us b ru
    induction ru with
    | start => intro h; simp at h
    | @next Us b U b' ru hlu hcu ih =>
      intro hlt
      simp only [List.length_append, List.length_singleton] at hlt
      rcases Nat.lt_or_ge Ts.length Us.length with h | h
      · exact ih h
      · obtain ⟨rfl, rfl⟩ := run_unique hx r ru (by omega)
        exact ⟨_, hlu⟩
  rcases forward_run hf hs with ⟨_, _, Us, b, _, ru, hlu, _⟩ | ⟨e, Us, b, _, ru, _, hle⟩
  · exact pass ru (by omega)
  · rcases Nat.lt_trichotomy Ts.length Us.length with h | h | h
    · exact pass ru h
    · obtain ⟨rfl, rfl⟩ := run_unique hx r ru h.symm
      exact ⟨_, hle⟩
    · exfalso
      have stop : ∀ {Vs c}, Run S frames i Vs c → ¬ Us.length < Vs.length := by
        intro Vs c rv
        induction rv with
        | start => intro h; simp at h
        | @next Vs c V c' rv hlv hcv ih =>
          intro hlt
          simp only [List.length_append, List.length_singleton] at hlt
          rcases Nat.lt_or_ge Us.length Vs.length with h | h
          · exact ih h
          · obtain ⟨rfl, rfl⟩ := run_unique hx ru rv (by omega)
            have := located_unique hx hlv hle
            cases this
      exact stop r h

theorem range_cloud {f : Nat → T2 ℝ} {B b : Nat} (hb : b < B) : ((List.range B).map f).getD b ⟨[], 0⟩ = f b := by simp [hb]

theorem compose_smooth {T Q : E → M4 ℝ} (hT : SmM4 k x0 T) (hQ : SmM4 k x0 Q) : SmM4 k x0 fun e => Geom.composeTransforms1 (T e) (Q e) :=
  ⟨hT.R.mul hQ.R, (hT.R.mulVec hQ.t).add hT.t, .const _, .const _⟩

/-- Localisation of one frame after a smooth run. -/
theorem locate_smooth {icp : List (V3 ℝ) → List (V3 ℝ) → List (V3 ℝ) → Option (M4 ℝ) → Except Icp.Err (M4 ℝ × List Nat)} {calm : List (V3 ℝ) → List (V3 ℝ) → List (V3 ℝ) → Prop}
    (hreg : SmoothReg k x0 icp calm) (hS : S.odom = .prov (Icp.provide icp)) (hi : SmIn k x0 S.eps i) (hf : ∀ᶠ e in 𝓝 x0, SeqOk S (frames e) (i e)) (hs : ∀ᶠ e in 𝓝 x0, SysOk S (i e))
    {n : Nat} (hn0 : 0 < n) (hnL : n < (i x0).L) {Ts : E → List (Rgbd.TM ℝ)} (hr : RunsNear x0 S frames i n Ts a) (ha : SmMap k x0 a)
    (hQ : SmPose k x0 (i x0).B fun e => (Ts e).getD (n - 1) (eyes 1))
    (hview : CalmView x0 (fun e => snap (i e) (n - 1)) (fun e => ((Ts e).getD (n - 1) (eyes 1)).at') a)
    (hq : ∀ P maps fr, a x0 .points = some P →
      Question S (a x0) P (snap (i x0) n) (posed (snap (i x0) (n - 1)) ((Ts x0).getD (n - 1) (eyes 1))) ((Ts x0).getD (n - 1) (eyes 1)) maps fr →
      ∀ src tgt nrm, (getList .points fr).1 = some src → (getList .points maps).1 = some tgt → (getList .normals maps).1 = some nrm → ∀ b < (i x0).B,
        (tgt.getD b ⟨[], 0⟩).rows ≠ [] ∧ calm (vecs (src.getD b ⟨[], 0⟩)) (vecs (tgt.getD b ⟨[], 0⟩)) (vecs (nrm.getD b ⟨[], 0⟩))) :
    ∃ T, LocatedNear x0 S frames i Ts a T ∧ SmPose k x0 (i x0).B T := by
  have hx : ∀ provide, S.odom = .prov provide → Ext provide := fun p h => by rw [hS] at h; cases h; exact icp_provide_ext _
  obtain ⟨Q, hQe⟩ : ∃ Q : E → Rgbd.TM ℝ, Q = fun e => (Ts e).getD (n - 1) (eyes 1) := ⟨_, rfl⟩
  have hQx : ∀ e, (Ts e).getD (n - 1) (eyes 1) = Q e := fun e => by rw [hQe]
  simp only [hQx] at hQ hview hq
  -- the question, for all parameters near `x0`
  have hlast : ∀ᶠ e in 𝓝 x0, (Ts e).getLast? = some (Q e) := by
    filter_upwards [hr] with e ⟨_, hlen⟩
    rw [← hQx e, List.getLast?_eq_getElem?, hlen, List.getElem?_eq_getElem (show n - 1 < (Ts e).length by omega), List.getD_eq_getElem _ _ (show n - 1 < (Ts e).length by omega)]
  have hall : ∀ᶠ e in 𝓝 x0, ∃ P Nn maps fr, a e .points = some P ∧ a e .normals = some Nn ∧ Wf (a e) P ∧ P.length = (i x0).B ∧
      Question S (a e) P (snap (i e) n) (posed (snap (i e) (n - 1)) (Q e)) (Q e) maps fr ∧ ∀ T, answer (Q e) (Icp.provide icp maps fr) = .ok T → Located S (frames e) (i e) (Ts e) (a e) (.ok T) := by
    filter_upwards [hf, hs, hr, hlast] with e hfe hse ⟨hre, hlen⟩ hle
    obtain ⟨res, hres⟩ := run_located hfe hse hx hre (by rw [hlen, (hi.dims e).2.1]; exact hnL)
    have hres' := hres
    unfold Located at hres'
    rw [hS, hle] at hres'
    obtain ⟨P, maps, fr, hP, q, he⟩ := hres'
    obtain ⟨hw, hl, _⟩ := run_wf hfe.B hre P hP
    obtain ⟨Nn, hN⟩ := Option.isSome_iff_exists.1 (run_normals hfe.B hre hP)
    rw [hlen] at q
    refine ⟨P, Nn, maps, fr, hP, hN, hw, by rw [hl, (hi.dims e).1], q, fun T hT => ?_⟩
    rw [← hT, ← he]; exact hres
  obtain ⟨P0, N0, maps0, fr0, hP0, hN0, hw0, hl0, q0, _⟩ := hall.self_of_nhds
  obtain ⟨rows, ar0, im0⟩ := q0.maps
  obtain ⟨px, if0, hpx0⟩ := q0.frames
  obtain ⟨s1, s2, s3, s4⟩ := snap_dims (i x0) n
  have hin : SmIn k x0 S.eps fun e => snap (i e) n := snap_smooth hi hnL
  have hip : SmIn k x0 S.eps fun e => snap (i e) (n - 1) := snap_smooth hi (by omega)
  have hB : 0 < (i x0).B := hf.self_of_nhds.B
  -- the same rows
  have hrows : ∀ᶠ e in 𝓝 x0, ∀ P, a e .points = some P → ∀ rows', ActiveRows P (posed (snap (i e) (n - 1)) (Q e)) (fun b => (Q e).at' b 0) rows' → rows' = rows := by
    have hw' : ∀ᶠ e in 𝓝 x0, Wf (a e) ((a e .points).getD []) ∧ ((a e .points).getD []).length = (snap (i x0) (n - 1)).B := by
      filter_upwards [hall] with e ⟨P, _, _, _, hP, _, hw, hl, _⟩
      rw [hP, (snap_dims (i x0) (n - 1)).1]; exact ⟨hw, hl⟩
    have hQ' : SmPose k x0 (snap (i x0) (n - 1)).B Q := by rw [(snap_dims (i x0) (n - 1)).1]; exact hQ
    filter_upwards [chosen_const hip hQ' ha hw' hview] with e he P hP rows' ar
    refine rows_unique ar.sorted ar0.sorted fun r => ?_
    rw [ar.mem, ar0.mem]
    have := he r
    rw [hP, hP0] at this
    exact this
  have hrowlt : ∀ r ∈ rows, r.n < Fusion.sizeAt P0 r.b := by
    intro r h
    obtain ⟨_, _, p, hp, _⟩ := (ar0.mem r).1 h
    exact vecAt_size hp
  have hsize : ∀ᶠ e in 𝓝 x0, ∀ b < (i x0).B, Fusion.sizeAt ((a e .points).getD []) b = Fusion.sizeAt P0 b := by
    refine ev_lt fun b _ => ?_
    filter_upwards [ha.size .points b] with e he
    rw [he, hP0]; rfl
  have hrowb : ∀ r ∈ rows, r.b < (i x0).B := by
    intro r h
    by_contra hb
    have := hrowlt r h
    rw [← Fusion.sizeAt_isSome] at this
    simp [Fusion.rowAt, List.getElem?_eq_none (show P0.length ≤ r.b by omega)] at this
  -- the same pixels
  have hpx : ∀ᶠ e in 𝓝 x0, ∀ b < (i x0).B, ∀ px', px'.Pairwise Icp.rowMajor →
      (∀ h w, (h, w) ∈ px' ↔ h < (snap (i e) n).H ∧ w < (snap (i e) n).W ∧ S.ds ∣ (h : Int) ∧ S.ds ∣ (w : Int) ∧ 0 < (snap (i e) n).depth b 0 h w) → px' = px b := by
    have hd : ∀ᶠ e in 𝓝 x0, ∀ b < (i x0).B, ∀ h < (i x0).H, ∀ w < (i x0).W, (0 < (snap (i e) n).depth b 0 h w ↔ 0 < (snap (i x0) n).depth b 0 h w) :=
      ev_lt fun b hb => ev_lt fun h hh => ev_lt fun w hw => (seen_stable hin (by rw [s1]; exact hb) (by rw [s2]; exact one_pos) (by rw [s3]; exact hh) (by rw [s4]; exact hw)).iff
    filter_upwards [hd] with e he b hb px' hp1 hp2
    obtain ⟨g1, g2⟩ := hpx0 b (by rw [s1]; exact hb)
    refine px_unique hp1 g1 fun h w => ?_
    rw [hp2, g2, s3, s4, show (snap (i e) n).H = (i x0).H from (hi.dims e).2.2.1, show (snap (i e) n).W = (i x0).W from (hi.dims e).2.2.2]
    constructor
    · rintro ⟨h1, h2, h3, h4, h5⟩; exact ⟨h1, h2, h3, h4, (he b hb h h1 w h2).1 h5⟩
    · rintro ⟨h1, h2, h3, h4, h5⟩; exact ⟨h1, h2, h3, h4, (he b hb h h1 w h2).2 h5⟩
  -- the clouds
  obtain ⟨src, hsrc⟩ : ∃ src : Nat → E → List (V3 ℝ), ∀ b e, src b e = (px b).map fun x => Rgbd.gvertexAt S.eps (posed (snap (i e) n) (Q e)) b 0 x.1 x.2 := ⟨_, fun _ _ => rfl⟩
  obtain ⟨tgt, htgt⟩ : ∃ tgt : Attr → Nat → E → List (V3 ℝ), ∀ X b e, tgt X b e = (Icp.onGridOf S.ds rows b).map fun r => vec (a e X) b r.n := ⟨_, fun _ _ _ => rfl⟩
  have hQ' : SmPose k x0 (snap (i x0) n).B Q := by rw [s1]; exact hQ
  have hsm1 : ∀ b < (i x0).B, SmL k x0 (px b).length (src b) := by
    intro b hb
    have : src b = fun e => (px b).map fun x => Rgbd.gvertexAt S.eps (posed (snap (i e) n) (Q e)) b 0 x.1 x.2 := funext (hsrc b)
    rw [this]
    refine smL_map _ fun x hx => ?_
    obtain ⟨g1, g2⟩ := hpx0 b (by rw [s1]; exact hb)
    obtain ⟨x1, x2, _⟩ := (g2 x.1 x.2).1 hx
    exact gvertex_smooth hin hQ' (by rw [s1]; exact hb) (by rw [s2]; exact one_pos) x1 x2
  have hsm2 : ∀ X b, SmL k x0 (Icp.onGridOf S.ds rows b).length (tgt X b) := by
    intro X b
    have : tgt X b = fun e => (Icp.onGridOf S.ds rows b).map fun r => vec (a e X) b r.n := funext (htgt X b)
    rw [this]
    exact smL_map _ fun r _ => vec_smooth ha X b r.n
  have hcloud : ∀ᶠ e in 𝓝 x0, ∀ P Nn, a e .points = some P → a e .normals = some Nn → Wf (a e) P → P.length = (i x0).B → ∀ maps fr,
      Question S (a e) P (snap (i e) n) (posed (snap (i e) (n - 1)) (Q e)) (Q e) maps fr →
      ∃ am af F M1 M2, Inv maps am ∧ Inv fr af ∧ af .points = some F ∧ am .points = some M1 ∧ am .normals = some M2 ∧ F.length = (i x0).B ∧ M1.length = (i x0).B ∧
        ∀ b < (i x0).B, vecs (F.getD b ⟨[], 0⟩) = src b e ∧ vecs (M1.getD b ⟨[], 0⟩) = tgt .points b e ∧ vecs (M2.getD b ⟨[], 0⟩) = tgt .normals b e := by
    filter_upwards [hrows, hpx, hsize] with e her hep hes P Nn hP hN hw hl maps fr q
    obtain ⟨rows', ar, im⟩ := q.maps
    obtain ⟨px', iff, hp⟩ := q.frames
    obtain rfl := her P hP rows' ar
    have hBe : (snap (i e) n).B = (i x0).B := ((snap_dims (i e) n).1).trans (hi.dims e).1
    have hlt : ∀ r ∈ rows', r.n < Fusion.sizeAt P r.b := by
      intro r h
      have := hes r.b (hrowb r h)
      rw [hP, Option.getD_some] at this
      rw [this]; exact hrowlt r h
    refine ⟨_, _, _, _, _, im, iff, rfl, by show Option.map _ (a e .points) = _; rw [hP]; rfl, by show Option.map _ (a e .normals) = _; rw [hN]; rfl, ?_, by simpa using hl, fun b hb => ⟨?_, ?_, ?_⟩⟩
    · rw [List.length_map, List.length_range]; exact hBe
    · have hb' : b < (Fusion.Frame.ofIn S.nrm S.eps { snap (i e) n with poses := some (Q e).at' }).B := by show b < (snap (i e) n).B; rw [hBe]; exact hb
      rw [range_cloud hb', vecs_cloudOf, hsrc, hep b hb (px' b) (hp b (by rw [hBe]; exact hb)).1 (hp b (by rw [hBe]; exact hb)).2]
      rfl
    · rw [range_cloud (by rw [hl]; exact hb), htgt]
      exact map_cloud hw (by simp) hP hlt S.ds b
    · rw [range_cloud (by rw [hl]; exact hb), htgt]
      exact map_cloud hw (by simp) hN hlt S.ds b
  -- registrations
  obtain ⟨am, af, F, M1, M2, h1, h2, h3, h4, h5, hF, hM, hvec⟩ := hcloud.self_of_nhds P0 N0 hP0 hN0 hw0 hl0 maps0 fr0 q0
  have hregs : ∀ b, ∃ (T : E → M4 ℝ) (idx : List Nat), b < (i x0).B → SmM4 k x0 T ∧ ∀ᶠ e in 𝓝 x0, icp (src b e) (tgt .points b e) (tgt .normals b e) (some M4.one) = .ok (T e, idx) := by
    intro b
    by_cases hb : b < (i x0).B
    · obtain ⟨c1, c2⟩ := hq P0 maps0 fr0 hP0 q0 F M1 M2 (by rw [(inv_obs h2).list]; exact h3) (by rw [(inv_obs h1).list]; exact h4) (by rw [(inv_obs h1).list]; exact h5) b hb
      obtain ⟨v1, v2, v3⟩ := hvec b hb
      rw [v1, v2, v3] at c2
      have hpos : 0 < (Icp.onGridOf S.ds rows b).length := by
        have e1 : (tgt .points b x0).length = (M1.getD b ⟨[], 0⟩).rows.length := by rw [← v2, vecs, List.length_map]
        rw [(hsm2 .points b).len] at e1
        rw [e1]; exact List.length_pos_of_ne_nil c1
      obtain ⟨T, idx, hT⟩ := hreg _ _ (src b) (tgt .points b) (tgt .normals b) hpos (hsm1 b hb) (hsm2 .points b) (hsm2 .normals b) c2
      exact ⟨T, idx, fun _ => hT⟩
    · exact ⟨fun _ => M4.one, [], fun h => absurd h hb⟩
  choose T idx hT using hregs
  refine ⟨fun e => composed ((List.range (i x0).B).map fun b => T b e) (Q e), ?_, fun b hb => ?_⟩
  · have hev : ∀ᶠ e in 𝓝 x0, ∀ b < (i x0).B, icp (src b e) (tgt .points b e) (tgt .normals b e) (some M4.one) = .ok (T b e, idx b) := ev_lt fun b hb => (hT b hb).2
    filter_upwards [hall, hcloud, hev] with e ⟨P, Nn, maps, fr, hP, hN, hw, hl, q, hloc⟩ hce hee
    refine hloc _ ?_
    obtain ⟨am, af, F, M1, M2, h1, h2, h3, h4, h5, hF, hM, hvec⟩ := hce P Nn hP hN hw hl maps fr q
    rw [Icp.provide_eq (R := fun b => (T b e, idx b)) h1 h2 h4 h5 h3 (hM.trans hF.symm) (fun b hb => by
      obtain ⟨v1, v2, v3⟩ := hvec b (by rw [← hF]; exact hb)
      rw [v1, v2, v3]; exact hee b (by rw [← hF]; exact hb))]
    rw [answer, hF]
  · refine SmM4.congr (compose_smooth (hT b hb).1 (hQ b hb)) (Eventually.of_forall fun e => ?_)
    simp [composed, hb]

/-- **C79**.  With odometry "icp" or "gradicp", too, `ICPSLAM` and `PointFusion` succeed near `x0`, and every number in the returned map and poses is a
differentiable function of colours, depths, intrinsics and first poses, wherever no decision is on an edge. -/
theorem slam_smooth {nn : List (V3 ℝ) → V3 ℝ → Nat} (hnn : Icp.NearestIn nn) {epsE eps : ℝ} (hE : 0 < epsE) {p : Params} {odom : String} (hodom : odom ≠ "gt")
    (hm : Made nn epsE eps Rgbd.nrmR p odom S) (hit : 1 ≤ p.numiters) (hdamp : 0 < p.damp) (hlm : 1 < p.lambdaMax) (hds : 0 < p.ds)
    (hi : SmIn k x0 S.eps i) (hf : ∀ᶠ e in 𝓝 x0, SeqOk S (frames e) (i e)) (hsm : ∀ e, SmallSeq S (i e)) (hc : CalmMap k x0 S frames i)
    (ht : CalmTrack x0 nn epsE p odom S frames i)
    (hP : (∀ e, (frames e).poses = none) ∨ ∃ P : E → Rgbd.TM ℝ, (∀ e, (frames e).poses = some (P e)) ∧ ∀ b < (i x0).B, SmM4 k x0 fun e => (P e).at' b 0) :
    (∀ᶠ e in 𝓝 x0, ∃ m R, forward S (frames e) = .ok (m, R)) ∧
    ∀ (m : E → PC ℝ) (R : E → Rgbd.TM ℝ), (∀ᶠ e in 𝓝 x0, forward S (frames e) = .ok (m e, R e)) →
      SmMap k x0 (fun e X => (getList X (m e)).1) ∧ ∀ b < (i x0).B, ∀ t < (i x0).L, SmM4 k x0 fun e => (R e).at' b t := by
  have hs : ∀ᶠ e in 𝓝 x0, SysOk S (i e) := Eventually.of_forall fun e => (made_sysOk hm (.inr hds) (hsm e)).1
  have hx := (made_sysOk hm (.inr hds) (hsm x0)).2
  obtain ⟨ho, _, hn, _⟩ := made_cases hm
  rcases smoothReg_of (k := k) (x0 := x0) hnn hE hit hdamp hlm ho with hg | ⟨icp, hS, hreg⟩
  · exfalso
    rcases odom_cases ho with ⟨h, _⟩ | ⟨_, h⟩ | ⟨_, h⟩
    · exact hodom h
    · rw [hg] at h; cases h
    · rw [hg] at h; cases h
  obtain ⟨Ts, a, hr, ha, hT⟩ := runs_smooth hi hf hs hx hn hc (fun n hnL Ts a hr ha hT => by
    rcases Nat.eq_zero_or_pos n with rfl | hn0
    · refine ⟨fun e => (given (frames e) (i e) 0).getD (eyes 1), ?_, fun b hb => ?_⟩
      · filter_upwards [hr] with e ⟨_, hlen⟩
        have hnil : Ts e = [] := List.length_eq_zero_iff.1 hlen
        have hg : ∃ T, given (frames e) (i e) 0 = some T := by
          rcases hP with h | ⟨P, h, _⟩
          · exact ⟨_, by rw [given, h e]; rfl⟩
          · exact ⟨_, by rw [given, h e]⟩
        obtain ⟨T, hT⟩ := hg
        rw [Located, hS, hnil]
        show _ = ofPoses (given (frames e) (i e) 0)
        rw [hT]; rfl
      · rcases hP with h | ⟨P, h, hPs⟩
        · refine SmM4.congr (.const M4.one) (Eventually.of_forall fun e => ?_)
          simp only [given, h e]; rfl
        · refine SmM4.congr (hPs b hb) (Eventually.of_forall fun e => ?_)
          have hb' : b < (i e).B := by rw [(hi.dims e).1]; exact hb
          simp only [given, h e]
          simp [Rgbd.TM.sel, hb']
    · obtain ⟨c1, c2⟩ := ht n Ts a hn0 hnL hr
      exact locate_smooth hreg hS hi hf hs hn0 hnL hr ha (hT (n - 1) (by omega)) c1 c2) (i x0).L le_rfl
  exact forward_smooth hi hf hs hx hr ha hT

end
end Verif.Slam

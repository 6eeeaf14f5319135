import Verif.Slam.StaticProps
import Verif.Slam.SmoothTrack
import Verif.Icp.ConvergeRun
/-!
C96: the accuracy of tracking.  If the second frame shows the surface the first frame has measured, the pose `forward` recovers for it is the true pose
up to the bound of C95.
-/
namespace Verif.Slam
open Verif Pcs Geom
open Verif.Icp (Within vecs Place Scene)
set_option linter.unusedSectionVars false

/-! ### Specification -/

/-- The pixels with depth on the grid of the sampling ratio. -/
noncomputable def gridPixels (S : Sys ℝ) (i : Rgbd.In ℝ) (b t : Nat) : List (Nat × Nat) :=
  (depthPixels i b t).filter fun x => decide (S.ds ∣ (x.1 : Int) ∧ S.ds ∣ (x.2 : Int))

/-- By how much the registration named `odom` reduces the offset per iteration. -/
noncomputable def rate (p : Params) (odom : String) (g : ℝ) : ℝ := if odom = "icp" then g / 8 else 1 - Icp.stepWeight p.B2 p.nu (-70) + g / 8

/-- The accuracy of one registration that starts within `c` of the truth. -/
noncomputable def accuracy (p : Params) (odom : String) (g c F : ℝ) : ℝ := 2 * max (rate p odom g ^ p.numiters.toNat * (2 * c)) F

/-- The numerical side conditions: parameters of the registration against the constants of the scene. -/
structure Tuned (p : Params) (odom : String) (eps ρ sep g σ η c F : ℝ) (N : Nat) : Prop where
  iters : 1 ≤ p.numiters
  damp0 : 0 < p.damp
  damp : (if odom = "icp" then 2 else p.lambdaMax) ^ p.numiters.toNat * p.damp ≤ N * ((1 + ρ) * (g ^ 2 / 64)) ^ 2
  grad : odom = "gradicp" → 1 < p.lambdaMax ∧ 0 < p.B2 ∧ 0 < p.nu ∧ g / 8 ≤ Icp.stepWeight p.B2 p.nu (-70)
  thr : ∀ t, p.distThresh = some t → sep ^ 2 ≤ t
  rho : 0 ≤ ρ
  sig : 0 ≤ σ
  eta0 : 0 ≤ η
  eta : η ≤ g / 64
  pos : 0 < g
  le1 : g ≤ 1
  basin : Icp.Basin ρ sep g σ η eps p.numiters.toNat (2 * c) F

/-- The second frame of sequence `b`, taken at the true pose `Pt`, shows the surface that the first frame, taken at `P0`, has measured: every grid pixel `x`
of the second frame measures a point (`Pt` of its vertex) next to the point measured by the grid pixel `m x` of the first frame (up to `(1+ρ)·η`) and on the
plane through that point (up to `(1+ρ)·σ`); points of different grid pixels of the first frame are `2·sep` apart; and the points hit determine the motion. -/
structure Revisits (S : Sys ℝ) (i : Rgbd.In ℝ) (b : Nat) (P0 Pt : M4 ℝ) (m : Nat × Nat → Nat × Nat) (ρ sep g σ η : ℝ) : Prop where
  nonempty : gridPixels S i b 1 ≠ []
  on : ∀ x ∈ gridPixels S i b 1, m x ∈ gridPixels S i b 0
  noise : ∀ x ∈ gridPixels S i b 1, |(worldValue S i b 0 P0 (m x) .normals).dot ((worldValue S i b 1 Pt x .points).sub (worldValue S i b 0 P0 (m x) .points))| ≤ (1 + ρ) * σ
  slide : ∀ x ∈ gridPixels S i b 1, vnorm ((worldValue S i b 1 Pt x .points).sub (worldValue S i b 0 P0 (m x) .points)) ≤ (1 + ρ) * η
  bound : ∀ x ∈ gridPixels S i b 1, vnorm (worldValue S i b 0 P0 (m x) .points) ≤ ρ
  apart : ∀ x ∈ gridPixels S i b 0, ∀ y ∈ gridPixels S i b 0, x ≠ y →
    2 * sep ≤ vnorm ((worldValue S i b 0 P0 x .points).sub (worldValue S i b 0 P0 y .points))
  cond : ∀ v w : V3 ℝ, g ^ 2 * ((gridPixels S i b 1).length * (1 + ρ) ^ 2) * (v.normSq + w.normSq) ≤
    ((gridPixels S i b 1).map fun x => (worldValue S i b 0 P0 (m x) .normals).dot (v.add (w.cross (worldValue S i b 0 P0 (m x) .points))) ^ 2).sum

/-! ### The registration -/

theorem mem_grid {S : Sys ℝ} {i : Rgbd.In ℝ} {b t : Nat} {x : Nat × Nat} :
    x ∈ gridPixels S i b t ↔ x ∈ depthPixels i b t ∧ S.ds ∣ (x.1 : Int) ∧ S.ds ∣ (x.2 : Int) := by
  rw [gridPixels, List.mem_filter, decide_eq_true_eq]

theorem depthPixels_sorted (i : Rgbd.In ℝ) (b t : Nat) : (depthPixels i b t).Pairwise Icp.rowMajor := by
  refine List.Pairwise.filter _ ?_
  rw [List.pairwise_flatMap]
  refine ⟨fun h _ => ?_, ?_⟩
  · rw [List.pairwise_map]
    exact List.pairwise_lt_range.imp fun h => .inr ⟨rfl, h⟩
  · refine List.pairwise_lt_range.imp fun {a c} hac x hx y hy => ?_
    rw [List.mem_map] at hx hy
    obtain ⟨_, _, rfl⟩ := hx
    obtain ⟨_, _, rfl⟩ := hy
    exact .inl hac

theorem within_left {A B Q : M4 ℝ} {r : ℝ} (h : Within A B r) : Within (composeTransforms1 A Q) (composeTransforms1 B Q) r := by
  intro p
  have e : ∀ A : M4 ℝ, ((composeTransforms1 A Q).R.mulVec p).add (composeTransforms1 A Q).t = (A.R.mulVec ((Q.R.mulVec p).add Q.t)).add A.t := by
    intro A
    simp only [composeTransforms1, M3.mul_mulVec]
    ext <;> simp [V3.add, M3.mulVec, V3.dot] <;> ring
  rw [e, e]
  exact h _

/-- Both registrations, as a provider. -/
theorem provide_accurate {nn : List (V3 ℝ) → V3 ℝ → Nat} (hn : Icp.NearestIn nn) {epsE eps : ℝ} {nrm : V3 ℝ → ℝ} {p : Params} {odom : String} {S : Sys ℝ}
    (hmade : Made nn epsE eps nrm p odom S) {provide : PC ℝ → PC ℝ → Except Icp.Err (List (M4 ℝ))} (hS : S.odom = .prov provide) {ρ sep g σ η c F : ℝ} {N : Nat}
    (ht : Tuned p odom epsE ρ sep g σ η c F N) {maps frames : PC ℝ} {am af : Clouds ℝ} {P Q Nn : List (T2 ℝ)}
    (hM : Inv maps am) (hf : Inv frames af) (hQ : am .points = some Q) (hN : am .normals = some Nn) (hP : af .points = some P)
    (hl : Q.length = P.length) {Ts : Nat → M4 ℝ} {places : Nat → List Place}
    (hs : ∀ b p' q m, P[b]? = some p' → Q[b]? = some q → Nn[b]? = some m → Scene p.distThresh (vecs q) (vecs m) (places b) ρ sep g σ η ∧ (Ts b).Rigid ∧
      transformPointcloud (Ts b) (vecs p') = (places b).map Place.seen ∧ Within M4.one (Ts b) c ∧ N ≤ (places b).length) :
    ∃ T : Nat → M4 ℝ, provide maps frames = .ok ((List.range P.length).map T) ∧ ∀ b < P.length, Within (T b) (Ts b) (accuracy p odom g c F) := by
  rcases odom_cases (made_cases hmade).1 with ⟨_, h⟩ | ⟨h1, h⟩ | ⟨h1, h⟩ <;> rw [hS] at h <;> cases h
  · subst h1
    have hd := ht.damp
    rw [if_pos rfl] at hd
    obtain ⟨T, e, h⟩ := Icp.icp_provider_converges hn hM hf hQ hN hP hl hs ht.basin ht.damp0 hd ht.iters
    exact ⟨T, e, fun b hb => by rw [accuracy, rate, if_pos rfl]; exact h b hb⟩
  · subst h1
    have hd := ht.damp
    rw [if_neg (by decide)] at hd
    obtain ⟨g1, g2, g3, g4⟩ := ht.grad rfl
    obtain ⟨T, e, h⟩ := Icp.grad_provider_converges (B := p.B) hn hM hf hQ hN hP hl hs g1 g2 g3 g4 ht.basin ht.damp0 hd ht.iters
    exact ⟨T, e, fun b hb => by rw [accuracy, rate, if_neg (by decide)]; exact h b hb⟩

/-- Localisation, given a scene for the question that is asked. -/
theorem track_answer {nn : List (V3 ℝ) → V3 ℝ → Nat} (hn : Icp.NearestIn nn) {epsE eps : ℝ} {nrm : V3 ℝ → ℝ} {p : Params} {odom : String} {S : Sys ℝ}
    (hmade : Made nn epsE eps nrm p odom S) {provide : PC ℝ → PC ℝ → Except Icp.Err (List (M4 ℝ))} (hS : S.odom = .prov provide) {ρ sep g σ η c F : ℝ} {N : Nat}
    (ht : Tuned p odom epsE ρ sep g σ η c F N) {i : Rgbd.In ℝ} {a : Clouds ℝ} {P Nn : List (T2 ℝ)} (hP : a .points = some P) (hN : a .normals = some Nn)
    (hw : Wf a P) (hPl : P.length = i.B) {k j : Nat} {Q : Rgbd.TM ℝ} {Pt : Nat → M4 ℝ} {places : Nat → List Place} {maps fr : PC ℝ}
    (hq : Question S a P (snap i k) (posed (snap i j) Q) Q maps fr)
    (hsc : ∀ rows, ActiveRows P (posed (snap i j) Q) (fun b => Q.at' b 0) rows → ∀ b < i.B,
      Scene p.distThresh ((Icp.onGridOf S.ds rows b).map fun r => vec (a .points) b r.n) ((Icp.onGridOf S.ds rows b).map fun r => vec (a .normals) b r.n)
        (places b) ρ sep g σ η)
    (hpl : ∀ b < i.B, (places b).map Place.seen = (gridPixels S i b k).map fun x => worldValue S i b k (Pt b) x .points)
    (hct : ∀ b < i.B, N ≤ (places b).length) (hQ : ∀ b < i.B, (Q.at' b 0).Rigid) (hPt : ∀ b < i.B, (Pt b).Rigid)
    (hc : ∀ b < i.B, Within (Q.at' b 0) (Pt b) c) :
    ∃ T, answer Q (provide maps fr) = .ok T ∧ ∀ b < i.B, Within (T.at' b 0) (Pt b) (accuracy p odom g c F) := by
  obtain ⟨rows, ar, im⟩ := hq.maps
  obtain ⟨px, hfr, hpx⟩ := hq.frames
  obtain ⟨Sp1, _, SpH, SpW, Sp⟩ := snap_spec i k
  have hrows : ∀ r ∈ rows, r.n < Fusion.sizeAt P r.b := by
    intro r h
    obtain ⟨_, _, q, hq, _⟩ := (ar.mem r).1 h
    exact vecAt_size hq
  have hgrid : ∀ b < i.B, px b = gridPixels S i b k := by
    intro b hb
    obtain ⟨h1, h2⟩ := hpx b (by rw [Sp1]; exact hb)
    refine px_unique h1 (List.Pairwise.filter _ (depthPixels_sorted i b k)) fun y x => ?_
    rw [h2, mem_grid, mem_depthPixels, SpH, SpW, (Sp b hb).2.1]
    simp only
    tauto
  have hmp : Icp.mapAt a P.length S.ds rows .points = some ((List.range P.length).map fun b =>
      ⟨(Icp.onGridOf S.ds rows b).map fun r => (Fusion.rowAt P b r.n).getD [], 3⟩) := by
    simp only [Icp.mapAt, hP, Option.map_some]
  have hmn : Icp.mapAt a P.length S.ds rows .normals = some ((List.range P.length).map fun b =>
      ⟨(Icp.onGridOf S.ds rows b).map fun r => (Fusion.rowAt Nn b r.n).getD [], 3⟩) := by
    simp only [Icp.mapAt, hN, Option.map_some]
  have hfp : Icp.framesAt (Fusion.Frame.ofIn S.nrm S.eps { snap i k with poses := some Q.at' }) px .points = some ((List.range (snap i k).B).map fun b =>
      Icp.cloudOf (px b) (Rgbd.gvertexAt S.eps (posed (snap i k) Q) b 0)) := rfl
  have hl : ((List.range P.length).map fun b => (⟨(Icp.onGridOf S.ds rows b).map fun r => (Fusion.rowAt P b r.n).getD [], 3⟩ : T2 ℝ)).length =
      ((List.range (snap i k).B).map fun b => Icp.cloudOf (px b) (Rgbd.gvertexAt S.eps (posed (snap i k) Q) b 0)).length := by
    rw [List.length_map, List.length_map, List.length_range, List.length_range, hPl, Sp1]
  -- the motion of each camera
  have hinv : ∀ b < i.B, _ := fun b hb => inverse_transform_correct (Q.at' b 0) (hQ b hb)
  let Ms : Nat → M4 ℝ := fun b => (Pt b).mul (inverseTransform1 (Q.at' b 0))
  have hMs : ∀ b < i.B, (Ms b).Rigid := fun b hb => (hPt b hb).mul (hinv b hb).2.2
  have hMQ : ∀ b < i.B, (Ms b).mul (Q.at' b 0) = Pt b := fun b hb => by
    show ((Pt b).mul _).mul _ = _
    rw [M4.mul_assoc, (hinv b hb).1, M4.mul_one]
  have hstart : ∀ b < i.B, Within M4.one (Ms b) c := by
    intro b hb u
    have h := hc b hb (Icp.act (inverseTransform1 (Q.at' b 0)) u)
    have e1 : ((Q.at' b 0).R.mulVec (Icp.act (inverseTransform1 (Q.at' b 0)) u)).add (Q.at' b 0).t = u := by
      show Icp.act (Q.at' b 0) (Icp.act (inverseTransform1 (Q.at' b 0)) u) = u
      rw [← Icp.act_mul (hinv b hb).2.2.1, (hinv b hb).2.1, Icp.act_one]
    have e2 : ((Pt b).R.mulVec (Icp.act (inverseTransform1 (Q.at' b 0)) u)).add (Pt b).t = ((Ms b).R.mulVec u).add (Ms b).t := by
      show Icp.act (Pt b) (Icp.act (inverseTransform1 (Q.at' b 0)) u) = Icp.act (Ms b) u
      rw [← Icp.act_mul (hinv b hb).2.2.1]
    have e3 : (M4.one.R.mulVec u).add M4.one.t = u := Icp.act_one u
    rw [e1, e2] at h
    rw [e3]; exact h
  obtain ⟨T, e, hT⟩ := provide_accurate hn hmade hS ht im hfr hmp hmn hfp hl (Ts := Ms) (places := places) (by
    intro b p' q m hp hq' hm
    have hb : b < i.B := by
      have := (List.getElem?_eq_some_iff.1 hp).1
      rw [List.length_map, List.length_range, Sp1] at this; exact this
    rw [List.getElem?_map, List.getElem?_range (by rw [Sp1]; exact hb), Option.map_some, Option.some.injEq] at hp
    rw [List.getElem?_map, List.getElem?_range (by rw [hPl]; exact hb), Option.map_some, Option.some.injEq] at hq' hm
    subst hp hq' hm
    refine ⟨?_, hMs b hb, ?_, hstart b hb, hct b hb⟩
    · rw [map_cloud hw (by simp) hP hrows, map_cloud hw (by simp) hN hrows]
      exact hsc rows ar b hb
    · rw [vecs_cloudOf, hpl b hb, hgrid b hb, transformPointcloud, List.map_map]
      refine List.map_congr_left fun x hx => ?_
      obtain ⟨hx', _⟩ := mem_grid.1 hx
      have hi := (image_world S i (t := k) hb Q (y := x.1) (x := x.2) ((mem_depthPixels i b k x).1 hx').2.2).2.1
      show Icp.act (Ms b) (Rgbd.gvertexAt S.eps (posed (snap i k) Q) b 0 x.1 x.2) = _
      rw [hi]
      show Icp.act (Ms b) (Icp.act (Q.at' b 0) (Rgbd.vertexAt S.eps i b k x.1 x.2)) = Icp.act (Pt b) (Rgbd.vertexAt S.eps i b k x.1 x.2)
      rw [← Icp.act_mul (hQ b hb).1, hMQ b hb])
  have hlen : ((List.range (snap i k).B).map fun b => Icp.cloudOf (px b) (Rgbd.gvertexAt S.eps (posed (snap i k) Q) b 0)).length = i.B := by
    rw [List.length_map, List.length_range, Sp1]
  rw [hlen] at e hT
  refine ⟨_, by rw [e, answer], fun b hb => ?_⟩
  have h1 : (composed ((List.range i.B).map T) Q).at' b 0 = composeTransforms1 (T b) (Q.at' b 0) := by simp [composed, hb]
  have h2 : composeTransforms1 (Ms b) (Q.at' b 0) = Pt b := by
    rw [← hMQ b hb]
    exact Geom.compose_is_matrix_product _ _ (hMs b hb).1 (hQ b hb).1
  rw [h1, ← h2]
  exact within_left (hT b hb)

/-! ### The map after the first frame -/

theorem vecAt_map {B : Nat} (g : Nat → List (V3 ℝ)) {b : Nat} (hb : b < B) (n : Nat) :
    Fusion.vecAt ((List.range B).map fun b => (⟨(g b).map V3.toList, 3⟩ : T2 ℝ)) b n = (g b)[n]? := by
  simp only [Fusion.vecAt, Fusion.rowAt, List.getElem?_map, List.getElem?_range hb, Option.map_some, Option.bind_some, Option.map_map]
  cases (g b)[n]? <;> rfl

theorem first_frame_map {S : Sys ℝ} {frames : Rgbd.Obj ℝ} {i : Rgbd.In ℝ} {T : Rgbd.TM ℝ} {a : Clouds ℝ} (r : Run S frames i [T] a) {X : Attr} (hX : X ≠ .features) :
    ∃ l, a X = some l ∧ ∀ b < i.B, ∀ n, Fusion.vecAt l b n = (depthPixels i b 0)[n]?.map fun x => worldValue S i b 0 (T.at' b 0) x X := by
  cases hm : S.mapper with
  | aggregate =>
    refine ⟨_, (icpslam_map_content hm r (by simp)).2 X hX, fun b hb n => ?_⟩
    have e : ∀ b < i.B, ([T].zipIdx.flatMap fun Tt => contribution (snap i Tt.2) (attrImg S (posed (snap i Tt.2) Tt.1) X) b) =
        ((depthPixels i b 0).map fun x => worldValue S i b 0 (T.at' b 0) x X).map V3.toList := by
      intro b hb
      simp only [List.zipIdx_cons, List.zipIdx_nil, List.flatMap_cons, List.flatMap_nil, List.append_nil]
      rw [contribution_eq S i hb T hX, List.map_map]; rfl
    have e' : ((List.range i.B).map fun b => (⟨[T].zipIdx.flatMap fun Tt => contribution (snap i Tt.2) (attrImg S (posed (snap i Tt.2) Tt.1) X) b, 3⟩ : T2 ℝ)) =
        (List.range i.B).map fun b => ⟨((depthPixels i b 0).map fun x => worldValue S i b 0 (T.at' b 0) x X).map V3.toList, 3⟩ := by
      refine List.map_congr_left fun b hb => ?_
      rw [e b (List.mem_range.1 hb)]
    rw [e', vecAt_map _ hb, List.getElem?_map]
  | fusion d t =>
    generalize hTs : [T] = Ts at r
    cases r with
    | start => cases hTs
    | @next Us a0 U _ r hloc hc =>
      obtain ⟨rfl, rfl⟩ : Us = [] ∧ U = T := by
        cases Us with
        | nil => simpa using hTs.symm
        | cons _ Us => cases Us <;> simp at hTs
      unfold MapChange at hc
      have h0 : a0 .points = none := by rw [(run_empty r).1 rfl]; rfl
      rw [hm] at hc; simp only [h0] at hc
      obtain ⟨l, hl, hv⟩ := (still_first (S := S) (i := i) (T := U) (G := fun b => U.at' b 0) fun _ _ => rfl).vec X hX
      refine ⟨l, by rw [hc]; exact hl, fun b hb n => ?_⟩
      rw [hv b hb, still_one]

/-- The rows of the sampled map are the grid pixels of the first frame. -/
theorem first_rows {S : Sys ℝ} {i : Rgbd.In ℝ} {T : Rgbd.TM ℝ} {P : List (T2 ℝ)} (hT : ∀ b < i.B, (T.at' b 0).Rigid)
    (hv : ∀ b < i.B, ∀ n, Fusion.vecAt P b n = (depthPixels i b 0)[n]?.map fun x => worldValue S i b 0 (T.at' b 0) x .points)
    (hre : ∀ b < i.B, ∀ x ∈ depthPixels i b 0, Reprojects S i b x.1 x.2) {rows : List Fusion.Row}
    (ar : ActiveRows P (posed (snap i 0) T) (fun b => T.at' b 0) rows) {b : Nat} (hb : b < i.B) (r : Fusion.Row) :
    r ∈ Icp.onGridOf S.ds rows b ↔ r.b = b ∧ (depthPixels i b 0)[r.n]? = some (r.h, r.w) ∧ S.ds ∣ (r.h : Int) ∧ S.ds ∣ (r.w : Int) := by
  obtain ⟨Sj1, _, SjH, SjW, Sj⟩ := snap_spec i 0
  have hK : (posed (snap i 0) T).K b = i.K b := (Sj b hb).2.2.1
  have hH : (posed (snap i 0) T).H = i.H := SjH
  have hW : (posed (snap i 0) T).W = i.W := SjW
  have hc : ∀ x, Fusion.toCamera (T.at' b 0) (worldValue S i b 0 (T.at' b 0) x .points) = Rgbd.vertexAt S.eps i b 0 x.1 x.2 := fun x => toCamera_world (hT b hb).2.2 _
  rw [Icp.onGridOf, List.mem_filter, decide_eq_true_eq, ar.mem]
  constructor
  · rintro ⟨⟨_, _, q, hq, _, h5, h6⟩, rfl, d1, d2⟩
    rw [hv r.b hb, Option.map_eq_some_iff] at hq
    obtain ⟨x, hx, rfl⟩ := hq
    rw [hK, hc] at h5 h6
    obtain ⟨_, r2, r3⟩ := hre r.b hb x (List.mem_of_getElem? hx)
    refine ⟨rfl, ?_, d1, d2⟩
    rw [hx]
    exact congrArg some (Prod.ext (nearest_unique r2 h5) (nearest_unique r3 h6))
  · rintro ⟨rfl, hx, d1, d2⟩
    have hm := List.mem_of_getElem? hx
    obtain ⟨r1, r2, r3⟩ := hre r.b hb _ hm
    obtain ⟨m1, m2, _⟩ := (mem_depthPixels i r.b 0 _).1 hm
    refine ⟨⟨hH.symm ▸ m1, hW.symm ▸ m2, _, by rw [hv r.b hb, hx]; rfl, ?_, ?_, ?_⟩, rfl, d1, d2⟩
    · simp only [hK, hH, hW, hc]; exact r1
    · simp only [hK, hc]; exact r2
    · simp only [hK, hc]; exact r3

theorem world_normal {S : Sys ℝ} (hn : Rgbd.IsNorm S.nrm) (i : Rgbd.In ℝ) (b t : Nat) {G : M4 ℝ} (hG : G.Rigid) (x : Nat × Nat) :
    vnorm (worldValue S i b t G x .normals) ≤ 1 := by
  have e : (worldValue S i b t G x .normals).dot (worldValue S i b t G x .normals) = (Rgbd.normalAt S.nrm S.eps i b t x.1 x.2).dot (Rgbd.normalAt S.nrm S.eps i b t x.1 x.2) :=
    M3.dot_orthogonal hG.2.2 _ _
  have h : (worldValue S i b t G x .normals).dot (worldValue S i b t G x .normals) ≤ 1 := by
    rw [e]
    by_cases h0 : Rgbd.normalAt S.nrm S.eps i b t x.1 x.2 = V3.zero
    · rw [h0]; simp [V3.dot, V3.zero]
    · exact (unit_normal hn S.eps i b t _ _ h0).le
  rw [vnorm]
  exact Real.sqrt_le_one.2 h

/-- The scene the second frame is registered against. -/
theorem revisit_scene {S : Sys ℝ} (hn : Rgbd.IsNorm S.nrm) {i : Rgbd.In ℝ} {T : Rgbd.TM ℝ} {a : Clouds ℝ} {P Nn : List (T2 ℝ)} (hP : a .points = some P)
    (hN : a .normals = some Nn) (hw : Wf a P) (hT : ∀ b < i.B, (T.at' b 0).Rigid)
    (hv : ∀ b < i.B, ∀ n, Fusion.vecAt P b n = (depthPixels i b 0)[n]?.map fun x => worldValue S i b 0 (T.at' b 0) x .points)
    (hvn : ∀ b < i.B, ∀ n, Fusion.vecAt Nn b n = (depthPixels i b 0)[n]?.map fun x => worldValue S i b 0 (T.at' b 0) x .normals)
    (hre : ∀ b < i.B, ∀ x ∈ depthPixels i b 0, Reprojects S i b x.1 x.2) {rows : List Fusion.Row}
    (ar : ActiveRows P (posed (snap i 0) T) (fun b => T.at' b 0) rows) {b : Nat} (hb : b < i.B) {p : Params} {odom : String} {eps ρ sep g σ η c F : ℝ} {N : Nat}
    (ht : Tuned p odom eps ρ sep g σ η c F N) {Pt : M4 ℝ} {m : Nat × Nat → Nat × Nat} (hs : Revisits S i b (T.at' b 0) Pt m ρ sep g σ η) :
    Scene p.distThresh ((Icp.onGridOf S.ds rows b).map fun r => vec (a .points) b r.n) ((Icp.onGridOf S.ds rows b).map fun r => vec (a .normals) b r.n)
      ((gridPixels S i b 1).map fun x => ⟨worldValue S i b 0 (T.at' b 0) (m x) .points, worldValue S i b 0 (T.at' b 0) (m x) .normals,
        worldValue S i b 1 Pt x .points⟩) ρ sep g σ η := by
  have hrow := first_rows hT hv hre ar hb
  have hvec : ∀ r ∈ Icp.onGridOf S.ds rows b, vec (a .points) b r.n = worldValue S i b 0 (T.at' b 0) (r.h, r.w) .points ∧
      vec (a .normals) b r.n = worldValue S i b 0 (T.at' b 0) (r.h, r.w) .normals := by
    intro r hr
    obtain ⟨_, hx, _⟩ := (hrow r).1 hr
    constructor
    · have h : Fusion.vecAt P b r.n = some (worldValue S i b 0 (T.at' b 0) (r.h, r.w) .points) := by rw [hv b hb, hx]; rfl
      have h' := vec_some hw (X := .points) (by simp) hP (vecAt_size h)
      rw [h, Option.some.injEq] at h'; exact h'.symm
    · have h : Fusion.vecAt Nn b r.n = some (worldValue S i b 0 (T.at' b 0) (r.h, r.w) .normals) := by rw [hvn b hb, hx]; rfl
      have h' := vec_some hw (X := .normals) (by simp) hN (vecAt_size h)
      rw [h, Option.some.injEq] at h'; exact h'.symm
  have hnd : (Icp.onGridOf S.ds rows b).Nodup := by
    have : rows.Nodup := ar.sorted.imp fun {x y} h e => by
      subst e
      rcases h with h | ⟨_, h⟩ <;> exact lt_irrefl _ h
    exact this.filter _
  refine ⟨by simp, by simpa using hs.nonempty, ?_, ?_, ?_, ?_, ?_, ?_, ht.thr, ht.rho, ht.sig, ht.eta0, ht.eta, ht.pos, ht.le1, ?_⟩
  · intro x hx
    rw [List.mem_map] at hx
    obtain ⟨y, hy, rfl⟩ := hx
    obtain ⟨hg, d1, d2⟩ := mem_grid.1 (hs.on y hy)
    obtain ⟨n, hn⟩ := List.mem_iff_getElem?.1 hg
    have hr : (⟨b, n, (m y).1, (m y).2⟩ : Fusion.Row) ∈ Icp.onGridOf S.ds rows b := (hrow _).2 ⟨rfl, hn, d1, d2⟩
    rw [List.zip_map', List.mem_map]
    exact ⟨_, hr, Prod.ext (hvec _ hr).1 (hvec _ hr).2⟩
  · intro x hx
    rw [List.mem_map] at hx
    obtain ⟨y, hy, rfl⟩ := hx
    exact hs.noise y hy
  · intro x hx
    rw [List.mem_map] at hx
    obtain ⟨y, hy, rfl⟩ := hx
    exact hs.slide y hy
  · intro v hv'
    rw [List.mem_map] at hv'
    obtain ⟨r, hr, rfl⟩ := hv'
    rw [(hvec r hr).2]
    exact world_normal hn i b 0 (hT b hb) _
  · intro x hx
    rw [List.mem_map] at hx
    obtain ⟨y, hy, rfl⟩ := hx
    exact hs.bound y hy
  · intro k j u v hu hw hkj
    rw [List.getElem?_map, Option.map_eq_some_iff] at hu hw
    obtain ⟨r, hr, rfl⟩ := hu
    obtain ⟨r', hr', rfl⟩ := hw
    have hm := List.mem_of_getElem? hr
    have hm' := List.mem_of_getElem? hr'
    rw [(hvec r hm).1, (hvec r' hm').1]
    obtain ⟨e1, e2, d1, d2⟩ := (hrow r).1 hm
    obtain ⟨e1', e2', d1', d2'⟩ := (hrow r').1 hm'
    refine hs.apart _ (mem_grid.2 ⟨List.mem_of_getElem? e2, d1, d2⟩) _ (mem_grid.2 ⟨List.mem_of_getElem? e2', d1', d2'⟩) fun e => hkj ?_
    have en : r.n = r'.n := by
      rw [← e] at e2'
      obtain ⟨l1, q1⟩ := List.getElem?_eq_some_iff.1 e2
      obtain ⟨l2, q2⟩ := List.getElem?_eq_some_iff.1 e2'
      exact (depthPixels_nodup i b 0).getElem_inj_iff.1 (q1.trans q2.symm)
    have err : r = r' := Fusion.Row.ext (e1.trans e1'.symm) en (Prod.ext_iff.1 e).1 (Prod.ext_iff.1 e).2
    subst err
    obtain ⟨l1, q1⟩ := List.getElem?_eq_some_iff.1 hr
    obtain ⟨l2, q2⟩ := List.getElem?_eq_some_iff.1 hr'
    exact hnd.getElem_inj_iff.1 (q1.trans q2.symm)
  · intro v w
    have := hs.cond v w
    rw [List.length_map, List.map_map]
    exact this

/-! ### C96 -/

section
variable {nn : List (V3 ℝ) → V3 ℝ → Nat} (hnn : Icp.NearestIn nn) {epsE eps : ℝ} {p : Params} {odom : String} {S : Sys ℝ}
  (hmade : Made nn epsE eps Rgbd.nrmR p odom S) (hod : odom ≠ "gt") {frames : Rgbd.Obj ℝ} {i : Rgbd.In ℝ} (hB : 0 < i.B)
  (hrig : ∀ b < i.B, (firstPose frames b).Rigid) (hre : ∀ b < i.B, ∀ x ∈ depthPixels i b 0, Reprojects S i b x.1 x.2)
  {ρ sep g σ η c F : ℝ} {N : Nat} (ht : Tuned p odom epsE ρ sep g σ η c F N) {Pt : Nat → M4 ℝ} (hPt : ∀ b < i.B, (Pt b).Rigid)
  (hc : ∀ b < i.B, Within (firstPose frames b) (Pt b) c) {m : Nat → Nat × Nat → Nat × Nat}
  (hs : ∀ b < i.B, N ≤ (gridPixels S i b 1).length ∧ Revisits S i b (firstPose frames b) (Pt b) (m b) ρ sep g σ η)
include hrig in
theorem first_located {a : Clouds ℝ} {res : Except Err (Rgbd.TM ℝ)} (hloc : Located S frames i [] a res) :
    ∃ T, res = .ok T ∧ ∀ b < i.B, T.at' b 0 = firstPose frames b := by
  have h := located_gt (.inr rfl) hloc
  rw [h]
  cases hp : frames.poses with
  | some P =>
    refine ⟨P.sel (List.range i.B) [0], by simp only [given, hp, List.length_nil]; rfl, fun b hb => ?_⟩
    rw [firstPose, hp]
    simp [Rgbd.TM.sel, hb]
  | none =>
    refine ⟨eyes i.B, by simp [given, hp, ofPoses], fun b hb => ?_⟩
    rw [firstPose, hp]; rfl

include hnn hmade hod hB hrig hre ht hPt hc hs in
theorem second_located {T : Rgbd.TM ℝ} {a : Clouds ℝ} (r : Run S frames i [T] a) (hT : ∀ b < i.B, T.at' b 0 = firstPose frames b)
    {res : Except Err (Rgbd.TM ℝ)} (hloc : Located S frames i [T] a res) :
    ∃ U, res = .ok U ∧ ∀ b < i.B, Within (U.at' b 0) (Pt b) (accuracy p odom g c F) := by
  have hod' : ∃ provide, S.odom = .prov provide := by
    rcases odom_cases (made_cases hmade).1 with ⟨h, _⟩ | ⟨_, h⟩ | ⟨_, h⟩
    · exact absurd h hod
    · exact ⟨_, h⟩
    · exact ⟨_, h⟩
  obtain ⟨provide, ho⟩ := hod'
  rw [Located, ho] at hloc
  simp only [List.getLast?_singleton, List.length_singleton, Nat.sub_self] at hloc
  obtain ⟨P, maps, fr, hP, hq, hres⟩ := hloc
  obtain ⟨hw, hPl, _⟩ := run_wf hB r P hP
  obtain ⟨P', hP', hv⟩ := first_frame_map r (X := .points) (by simp)
  obtain ⟨Nn, hN, hvn⟩ := first_frame_map r (X := .normals) (by simp)
  obtain rfl : P = P' := by rw [hP] at hP'; cases hP'; rfl
  have hTr : ∀ b < i.B, (T.at' b 0).Rigid := fun b hb => by rw [hT b hb]; exact hrig b hb
  have hn : Rgbd.IsNorm S.nrm := (made_cases hmade).2.2.1 ▸ Rgbd.nrmR_isNorm
  obtain ⟨U, e, hU⟩ := track_answer hnn hmade ho ht hP hN hw hPl (Pt := Pt)
    (places := fun b => (gridPixels S i b 1).map fun x => ⟨worldValue S i b 0 (T.at' b 0) (m b x) .points, worldValue S i b 0 (T.at' b 0) (m b x) .normals,
        worldValue S i b 1 (Pt b) x .points⟩) hq
    (fun rows ar b hb => revisit_scene hn hP hN hw hTr hv hvn hre ar hb ht (by rw [hT b hb]; exact (hs b hb).2))
    (fun b hb => by rw [List.map_map]; rfl) (fun b hb => by rw [List.length_map]; exact (hs b hb).1) hTr hPt
    (fun b hb => by rw [hT b hb]; exact hc b hb)
  exact ⟨U, by rw [hres, e], hU⟩

include hnn hmade hod hrig hre ht hPt hc hs in
/-- **C96**.  Tracking accuracy: `ICPSLAM` and `PointFusion` with registration, for any exact nearest-neighbour search.  If the second frame of every sequence of the
batch shows the surface that the first has measured, from a true pose within `c` of the first, then the pose recovered for the second frame is the true pose up to
`accuracy`: offset `4·c` times the rate of the registration to the number of iterations, or the noise floor. -/
theorem second_frame_accuracy (hds : 0 < p.ds) (hi : SmallSeq S i) (hf : SeqOk S frames i) (hL : 2 ≤ i.L) :
    (∀ mp R, forward S frames = .ok (mp, R) → ∀ b < i.B, R.at' b 0 = firstPose frames b ∧ Within (R.at' b 1) (Pt b) (accuracy p odom g c F)) ∧
    (i.L = 2 → ∃ mp R, forward S frames = .ok (mp, R)) := by
  have key : ∀ {Ts a}, Run S frames i Ts a → (∀ T, Ts[0]? = some T → ∀ b < i.B, T.at' b 0 = firstPose frames b) ∧
      ∀ T, Ts[1]? = some T → ∀ b < i.B, Within (T.at' b 0) (Pt b) (accuracy p odom g c F) := by
    intro Ts a r
    induction r with
    | start => exact ⟨by simp, by simp⟩
    | @next Ts a T a' r hloc hch ih =>
      match Ts, ih, r, hloc with
      | [], ih, r, hloc =>
        obtain ⟨T', e, h⟩ := first_located hrig hloc
        cases e
        exact ⟨fun U hU => by simp at hU; subst hU; exact h, by simp⟩
      | [T0], ih, r, hloc =>
        obtain ⟨T', e, h⟩ := second_located hnn hmade hod hf.B hrig hre ht hPt hc hs r (ih.1 T0 rfl) hloc
        cases e
        exact ⟨fun U hU => ih.1 U (by simpa using hU), fun U hU => by simp at hU; subst hU; exact h⟩
      | T0 :: T1 :: Ts, ih, r, hloc =>
        exact ⟨fun U hU => ih.1 U (by simpa using hU), fun U hU => ih.2 U (by simpa using hU)⟩
  rcases forward_run hf (made_sysOk hmade (.inr hds) hi).1 with ⟨mp, R, Ts, a, e, r, hl, _, _, _, _, hR⟩ | ⟨e, Ts, a, he, r, hl, hloc⟩
  · refine ⟨fun mp' R' e' b hb => ?_, fun _ => ⟨mp, R, e⟩⟩
    rw [e] at e'; cases e'
    obtain ⟨k1, k2⟩ := key r
    have g0 : Ts[0]? = some Ts[0] := List.getElem?_eq_getElem (by omega)
    have g1 : Ts[1]? = some Ts[1] := List.getElem?_eq_getElem (by omega)
    rw [hR 0 _ g0 b, hR 1 _ g1 b]
    exact ⟨k1 _ g0 b hb, k2 _ g1 b hb⟩
  · refine ⟨fun mp' R' e' => (by rw [he] at e'; cases e'), fun h2 => ?_⟩
    exfalso
    match Ts, r, hl, hloc with
    | [], r, hl, hloc => obtain ⟨_, h, _⟩ := first_located hrig hloc; cases h
    | [T0], r, hl, hloc =>
      obtain ⟨_, h, _⟩ := second_located hnn hmade hod hf.B hrig hre ht hPt hc hs r ((key r).1 T0 rfl) hloc
      cases h
    | _ :: _ :: _, r, hl, hloc => simp at hl; omega
end

end Verif.Slam

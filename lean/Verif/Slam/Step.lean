import Verif.Slam.Model
import Verif.Icp.Down
import Verif.Icp.Provider
/-!
One SLAM step: what `_localize`, `_map` and `step` compute, for every map and frame in a reachable state.
-/
namespace Verif.Slam
open Verif Pcs
set_option linter.unusedSectionVars false
set_option linter.unusedSimpArgs false

section
variable {α : Type*} [Field α] [LinearOrder α] [IsStrictOrderedRing α] [FloorRing α]

/-- A frame object a user can hold: reachable by the API (`Rgbd.hist_rep`), one frame per sequence, at least 2×2 pixels, channels-last
(`ICPSLAM` with ground-truth odometry also takes channels-first frames). -/
structure LiveOk (S : Sys α) (o : Rgbd.Obj α) (i : Rgbd.In α) : Prop where
  rep : Rgbd.Rep S.nrm S.eps o i
  cf : o.cf = true → S.mapper = .aggregate ∧ S.odom.isGt = true
  L : i.L = 1
  B : 0 < i.B
  H : 2 ≤ i.H
  W : 2 ≤ i.W

/-- Attributes a map of the given class has. -/
def MapShape (m : Mapper α) (B : Nat) (a : Clouds α) : Prop :=
  ∀ P, a .points = some P → P.length = B ∧ (a .normals).isSome ∧ (a .colors).isSome ∧
    match m with
    | .aggregate => a .features = none
    | .fusion _ _ => ∃ F, a .features = some F ∧ (∀ t ∈ F, t.cols = 1) ∧
      ∀ b n, (Fusion.rowAt F b n).isSome → 0 < Fusion.conf F b n

/-- A map object a SLAM run can hold: reachable, with the attributes of the class, in list form (as the results of appending are). -/
structure MapOk (m : Mapper α) (B : Nat) (pc : PC α) (a : Clouds α) : Prop where
  inv : Inv pc a
  lst : a .points ≠ none → (pc.lst .points).isSome
  shape : MapShape m B a

theorem empty_mapOk (m : Mapper α) (B : Nat) : MapOk m B (newEmpty : PC α) emptyClouds :=
  ⟨.inl newEmpty_rep, fun h => absurd rfl h, fun P h => by cases h⟩

/-! ### find_active_map_points reads only the camera -/

theorem findActive_congr (pc : PC α) {f g : Fusion.Frame α} (hB : f.B = g.B) (hL : f.L = g.L) (hH : f.H = g.H) (hW : f.W = g.W)
    (hp : f.poses = g.poses) (hK : f.K = g.K) : Fusion.findActive pc f = Fusion.findActive pc g := by
  obtain ⟨B, L, H, W, _, _, _, _, _, _, p, K⟩ := f
  obtain ⟨B', L', H', W', _, _, _, _, _, _, p', K'⟩ := g
  simp only at hB hL hH hW hp hK
  subst hB; subst hL; subst hH; subst hW; subst hp; subst hK
  rfl

/-- The rows of `find_active_map_points(map, prev)`: exactly the visible points with their nearest pixels, sorted. -/
structure ActiveRows (P : List (T2 α)) (ip : Rgbd.In α) (Q : Nat → M4 α) (rows : List Fusion.Row) : Prop where
  sorted : rows.Pairwise Fusion.Row.before
  mem : ∀ r : Fusion.Row, r ∈ rows ↔ r.h < ip.H ∧ r.w < ip.W ∧ ∃ p, Fusion.vecAt P r.b r.n = some p ∧
    Fusion.Visible ip.H ip.W (ip.K r.b) (Fusion.toCamera (Q r.b) p) ∧
    Fusion.Nearest (Geom.projectPoint (ip.K r.b) (.inl (Fusion.toCamera (Q r.b) p))).2 r.h ∧
    Fusion.Nearest (Geom.projectPoint (ip.K r.b) (.inl (Fusion.toCamera (Q r.b) p))).1 r.w

theorem rep_poses {nrm : V3 α → α} {eps : α} {o : Rgbd.Obj α} {i : Rgbd.In α} (r : Rgbd.Rep nrm eps o i) {P : Rgbd.TM α} (h : o.poses = some P) :
    i.poses = some P.at' := Rgbd.poses_some r h

theorem active_prev {S : Sys α} {pc : PC α} {a : Clouds α} {P : List (T2 α)} {prev : Rgbd.Obj α} {ip : Rgbd.In α} {Q : Rgbd.TM α}
    (hi : Inv pc a) (hl : (pc.lst .points).isSome) (hP : a .points = some P) (hp : LiveOk S prev ip) (hQ : prev.poses = some Q)
    (hB : ip.B = P.length) :
    ∃ rows pc', Fusion.findActive pc (camera prev) = (.ok rows, pc') ∧ Inv pc' a ∧ (pc'.lst .points).isSome ∧
      ActiveRows P ip (fun b => Q.at' b 0) rows := by
  have e : Fusion.findActive pc (camera prev) = Fusion.findActive pc (Fusion.Frame.ofIn S.nrm S.eps ip) := by
    refine findActive_congr pc hp.rep.hB hp.rep.hL hp.rep.hH hp.rep.hW hp.rep.poses ?_
    funext b; exact hp.rep.K b
  obtain ⟨rows, pc', e1, i1, l1, _, o1, m1⟩ := Fusion.active_spec_partial (fr := Fusion.Frame.ofIn S.nrm S.eps ip) hi hP (.inl hl) hp.L hB
    (rep_poses hp.rep hQ)
  exact ⟨rows, pc', e.trans e1, i1, by rw [l1]; exact hl, o1, m1⟩

/-! ### Setting poses of a live frame -/

theorem setPoses_ok {S : Sys α} {o : Rgbd.Obj α} {i : Rgbd.In α} (h : LiveOk S o i) {P : Rgbd.TM α} (h0 : P.d0 = i.B) (h1 : P.d1 = 1) :
    ∃ o', Rgbd.setPoses (some P) o = (.ok (), o') ∧ LiveOk S o' { i with poses := some P.at' } ∧ o'.poses = some P ∧
      o'.rgb = o.rgb ∧ o'.depth = o.depth ∧ o'.K = o.K := by
  have hok : ¬ (!Pcs.okOpt (some P) (fun p => decide ((p.d0, p.d1) = (o.B, o.L)))) = true := by
    simp [Pcs.okOpt, h0, h1, h.rep.hB, h.rep.hL, h.L]
  have e : Rgbd.setPoses (some P) o = (.ok (), { o with poses := some P, gvertex := none, gnormal := none }) := by
    rw [Rgbd.setPoses, if_neg hok]
  exact ⟨_, e, ⟨(Rgbd.setPoses_rep h.rep e).1, h.cf, h.L, h.B, h.H, h.W⟩, rfl, rfl, rfl, rfl⟩

theorem LiveOk.last {S : Sys α} {o : Rgbd.Obj α} {i : Rgbd.In α} (h : LiveOk S o i) (hS : S.mapper ≠ .aggregate ∨ S.odom.isGt = false) :
    o.cf = false := by
  by_contra hc
  obtain ⟨h1, h2⟩ := h.cf (by simpa using hc)
  rcases hS with h3 | h3
  · exact h3 h1
  · rw [h2] at h3; cases h3

theorem live_read {S : Sys α} {o : Rgbd.Obj α} {i : Rgbd.In α} (h : LiveOk S o i) (hcf : o.cf = false) :
    ∃ x o', Fusion.readRaw S.nrm S.eps o = (.ok x, o') ∧ Fusion.RawOf S.nrm S.eps false i x ∧ LiveOk S o' i ∧ Rgbd.Same o o' := by
  obtain ⟨x, o', e, hx, r, s⟩ := Fusion.readRaw_spec h.rep h.H h.W
  exact ⟨x, o', e, hcf ▸ hx, ⟨r, by rw [s.cf]; exact h.cf, h.L, h.B, h.H, h.W⟩, s⟩

theorem poses_dims {S : Sys α} {o : Rgbd.Obj α} {i : Rgbd.In α} (h : LiveOk S o i) {P : Rgbd.TM α} (hP : o.poses = some P) :
    P.d0 = i.B ∧ P.d1 = 1 := by
  have := h.rep.posesSh P hP
  exact ⟨this.1, this.2.trans h.L⟩

/-! ### _localize -/

/-- The poses composed from the provider's answers. -/
def composed (T : List (M4 α)) (Q : Rgbd.TM α) : Rgbd.TM α :=
  ⟨T.length, 1, fun b _ => Geom.composeTransforms1 (T.getD b M4.one) (Q.at' b 0)⟩

/-- The question put to the provider: the map points seen from the previous frame, and the live frame's pixels placed at the previous
frame's poses `Q`; both on the pixel grid of the sampling ratio. -/
structure Question (S : Sys α) (a : Clouds α) (P : List (T2 α)) (i ip : Rgbd.In α) (Q : Rgbd.TM α) (maps frames : PC α) : Prop where
  maps : ∃ rows, ActiveRows P ip (fun b => Q.at' b 0) rows ∧ Inv maps (Icp.mapAt a P.length S.ds rows)
  frames : ∃ px : Nat → List (Nat × Nat), Inv frames (Icp.framesAt (Fusion.Frame.ofIn S.nrm S.eps { i with poses := some Q.at' }) px) ∧
    ∀ b < i.B, (px b).Pairwise Icp.rowMajor ∧
      ∀ h w, (h, w) ∈ px b ↔ h < i.H ∧ w < i.W ∧ S.ds ∣ (h : Int) ∧ S.ds ∣ (w : Int) ∧ 0 < i.depth b 0 h w

/-- Outcome of `_localize` for the provider's outcome. -/
def answer (Q : Rgbd.TM α) : Except Icp.Err (List (M4 α)) → Except Err (Rgbd.TM α)
  | .error e => .error (.icp e)
  | .ok T => .ok (composed T Q)

/-- The poses a frame has; ValueError if it has none. -/
def ofPoses : Option (Rgbd.TM α) → Except Err (Rgbd.TM α)
  | none => .error .valueError
  | some P => .ok P

theorem localize_gt {S : Sys α} (hS : S.odom = .gt ∨ prev = none) {pc : PC α} {live : Rgbd.Obj α} :
    localize S pc live prev = (ofPoses live.poses, pc, live) := by
  unfold localize
  rcases hS with h | h
  · rw [h]; cases live.poses <;> rfl
  · subst h
    cases S.odom <;> cases live.poses <;> rfl

/-- `_localize` with a provider asks exactly one question, about the previous pose, and composes the answer with the previous pose. -/
theorem localize_prov {S : Sys α} {provide} (hS : S.odom = .prov provide) (hds : 0 < S.ds) {pc : PC α} {a : Clouds α} {P : List (T2 α)}
    {live prev : Rgbd.Obj α} {i ip : Rgbd.In α} {Q : Rgbd.TM α} (hm : Inv pc a) (hl : (pc.lst .points).isSome) (hP : a .points = some P)
    (hi : LiveOk S live i) (hp : LiveOk S prev ip) (hQ : prev.poses = some Q) (hB : i.B = P.length) (hBp : ip.B = P.length) :
    ∃ maps frames pc' live', Question S a P i ip Q maps frames ∧
      localize S pc live (some prev) = (answer Q (provide maps frames), pc', live') ∧ Inv pc' a ∧ (pc'.lst .points).isSome ∧
      LiveOk S live' { i with poses := some Q.at' } := by
  obtain ⟨q0, q1⟩ := poses_dims hp hQ
  obtain ⟨l1, e1, ok1, p1, _⟩ := setPoses_ok hi (P := Q) (by rw [q0, hBp, hB]) q1
  obtain ⟨x2, l2, e2, hx2, ok2, s2⟩ := live_read ok1 (ok1.last (.inr (by rw [hS]; rfl)))
  obtain ⟨frames, px, e3, f3, _, x3⟩ := Icp.downsample_frames (fr := Fusion.Frame.ofIn S.nrm S.eps { i with poses := some Q.at' }) hi.L hi.B hds
  obtain ⟨rows, pc1, e4, i4, h4, r4⟩ := active_prev hm hl hP hp hQ hBp
  have hrows : ∀ r ∈ rows, r.b < P.length → (Fusion.rowAt P r.b r.n).isSome := by
    intro r hr _
    obtain ⟨_, _, p, h3, _⟩ := (r4.mem r).1 hr
    simp only [Fusion.vecAt, Option.map_eq_some_iff] at h3; obtain ⟨row, hr', _⟩ := h3; rw [hr']; rfl
  obtain ⟨maps, pc2, e5, i5, _, i6, l6⟩ := Icp.downsample_map i4 hP hrows (ne_of_gt hds)
  refine ⟨maps, frames, pc2, l2, ⟨⟨rows, r4, i5⟩, ⟨px, f3, fun b hb => ⟨(x3 b hb).1, fun h w => ?_⟩⟩⟩, ?_, i6, l6, ok2⟩
  · rw [(x3 b hb).2]; simp [Fusion.Frame.ofIn]
  · simp only [localize, hS, hQ, odometry, e1, withFrame, e2, Icp.downsampleRaw_last hx2, e3, e4, e5]
    cases provide maps frames with
    | error e => rfl
    | ok T => rfl

end
end Verif.Slam

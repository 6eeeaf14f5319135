import Verif.Slam.SmoothData
/-!
C78: mapping is differentiable.  This file: near a set of inputs where nothing is on an edge, `PointFusion` merges the same pixels into the same points.
-/
namespace Verif.Slam
open Verif Pcs Topology Filter
open Verif.Icp (Sm SmV SmM3 SmM4)
set_option linter.unusedSectionVars false

/-! ### Specification -/

/-- The number in column `c` of row `n` of cloud `b` of an attribute. -/
noncomputable def entry (l : Option (List (T2 ℝ))) (b n c : Nat) : ℝ := ((Fusion.rowAt (l.getD []) b n).getD []).getD c 0

/-- Row `n` of cloud `b` of an attribute with three columns. -/
noncomputable def vec (l : Option (List (T2 ℝ))) (b n : Nat) : V3 ℝ := ⟨entry l b n 0, entry l b n 1, entry l b n 2⟩

variable {E : Type*} [NormedAddCommGroup E] [NormedSpace ℝ E] {k : WithTop ℕ∞} {x0 : E}

/-- Point clouds that depend on a parameter: near `x0` they have the same attributes and the same sizes, and every number in them is a smooth function. -/
structure SmMap (k : WithTop ℕ∞) (x0 : E) (a : E → Clouds ℝ) : Prop where
  some : ∀ X, ∀ᶠ e in 𝓝 x0, (a e X).isSome = (a x0 X).isSome
  size : ∀ X b, ∀ᶠ e in 𝓝 x0, Fusion.sizeAt ((a e X).getD []) b = Fusion.sizeAt ((a x0 X).getD []) b
  entries : ∀ X b n c, Sm k x0 fun e => entry (a e X) b n c

/-- The map point in row `n` of cloud `b`, seen from the camera. -/
noncomputable def seenFrom (T : Nat → Nat → M4 ℝ) (a : Clouds ℝ) (b n : Nat) : V3 ℝ := Fusion.toCamera (T b 0) (vec (a .points) b n)

/-- A real number is not on an edge of the picture (with tolerance) of `n` pixels. -/
def OffEdge (u : ℝ) (n : Nat) : Prop := u ≠ -1 / 1000 ∧ u ≠ (n : ℝ) - 1 + 1 / 1000

/-- Nothing is on an edge when `PointFusion` (thresholds `d`, `t`) fuses the frame `i` (from the poses `T`) with the map `a` at `x0`. -/
structure CalmFuse (nrm : V3 ℝ → ℝ) (eps d t : ℝ) (x0 : E) (i : E → Rgbd.In ℝ) (T : E → Nat → Nat → M4 ℝ) (a : E → Clouds ℝ) : Prop where
  /-- No map point is in the plane of the camera; those in front of it have projections, not on the edges of the picture. -/
  proj : ∀ b n, n < Fusion.sizeAt ((a x0 .points).getD []) b → (seenFrom (T x0) (a x0) b n).z < 0 ∨
    (((i x0).K b).mulVec ⟨seenFrom (T x0) (a x0) b n, 1⟩).v.z ≠ 0 ∧ 0 < (seenFrom (T x0) (a x0) b n).z ∧
    OffEdge (Geom.projectPoint ((i x0).K b) (.inl (seenFrom (T x0) (a x0) b n))).1 (i x0).W ∧
    OffEdge (Geom.projectPoint ((i x0).K b) (.inl (seenFrom (T x0) (a x0) b n))).2 (i x0).H
  /-- The projection of a visible point is not halfway between two pixels. -/
  pixel : ∀ b n, n < Fusion.sizeAt ((a x0 .points).getD []) b → Fusion.Visible (i x0).H (i x0).W ((i x0).K b) (seenFrom (T x0) (a x0) b n) →
    ∀ m : Nat, |(Geom.projectPoint ((i x0).K b) (.inl (seenFrom (T x0) (a x0) b n))).1 - m| ≠ 1 / 2 ∧
      |(Geom.projectPoint ((i x0).K b) (.inl (seenFrom (T x0) (a x0) b n))).2 - m| ≠ 1 / 2
  /-- A point and a pixel are not exactly at the thresholds. -/
  similar : ∀ b n h w, n < Fusion.sizeAt ((a x0 .points).getD []) b → h < (i x0).H → w < (i x0).W → 0 < (i x0).depth b 0 h w →
    d < nrm ((Rgbd.gvertexAt eps (i x0) b 0 h w).sub (vec (a x0 .points) b n)) ∨
    (Rgbd.gnormalAt nrm eps (i x0) b 0 h w).dot (vec (a x0 .normals) b n) < t ∨
    (nrm ((Rgbd.gvertexAt eps (i x0) b 0 h w).sub (vec (a x0 .points) b n)) < d ∧ t < (Rgbd.gnormalAt nrm eps (i x0) b 0 h w).dot (vec (a x0 .normals) b n))
  /-- No tie between two points for the same pixel. -/
  tie : ∀ r s : Fusion.Row, Fusion.Candidate nrm ((a x0 .points).getD []) ((a x0 .normals).getD []) (Fusion.Frame.ofIn nrm eps (i x0)) (T x0) d t r →
    Fusion.Candidate nrm ((a x0 .points).getD []) ((a x0 .normals).getD []) (Fusion.Frame.ofIn nrm eps (i x0)) (T x0) d t s →
    s.b = r.b ∧ s.h = r.h ∧ s.w = r.w → s.n ≠ r.n →
    entry (a x0 .features) r.b r.n 0 ≠ entry (a x0 .features) s.b s.n 0 ∨
    ((∀ᶠ e in 𝓝 x0, entry (a e .features) r.b r.n 0 = entry (a e .features) s.b s.n 0) ∧
      ((vec (a x0 .points) r.b r.n).sub (Rgbd.gvertexAt eps (i x0) r.b 0 r.h r.w)).normSq ≠
        ((vec (a x0 .points) s.b s.n).sub (Rgbd.gvertexAt eps (i x0) s.b 0 s.h s.w)).normSq)

/-! ### Finitely many decisions -/

theorem ev_lt {p : Nat → E → Prop} {N : Nat} (h : ∀ n < N, ∀ᶠ e in 𝓝 x0, p n e) : ∀ᶠ e in 𝓝 x0, ∀ n < N, p n e := by
  have := (Filter.eventually_all_finset (l := 𝓝 x0) (p := fun n e => p n e) (Finset.range N)).2 fun n hn => h n (Finset.mem_range.1 hn)
  exact this.mono fun e he n hn => he n (Finset.mem_range.2 hn)

theorem vec_smooth {a : E → Clouds ℝ} (ha : SmMap k x0 a) (X : Attr) (b n : Nat) : SmV k x0 fun e => vec (a e X) b n :=
  ⟨ha.entries X b n 0, ha.entries X b n 1, ha.entries X b n 2⟩

theorem toV3_row {row : List ℝ} (h : row.length = 3) : Fusion.toV3 row = ⟨row.getD 0 0, row.getD 1 0, row.getD 2 0⟩ := by
  match row, h with
  | [x, y, z], _ => rfl

theorem vec_some {a : Clouds ℝ} {P : List (T2 ℝ)} (hw : Wf a P) {X : Attr} (hX : X ≠ .features) {l : List (T2 ℝ)} (hl : a X = some l) {b n : Nat}
    (hn : n < Fusion.sizeAt l b) : Fusion.vecAt l b n = some (vec (a X) b n) := by
  obtain ⟨row, hr⟩ := Option.isSome_iff_exists.1 (Fusion.sizeAt_isSome.2 hn)
  obtain ⟨C, hC, h3⟩ := hw.cols X l hl
  have := Fusion.valid_row (hw.valid X l hl) hC hr
  rw [h3 hX] at this
  simp only [Fusion.vecAt, hr, Option.map_some, toV3_row this, vec, entry, hl, Option.getD_some]

theorem vecAt_size {l : List (T2 ℝ)} {b n : Nat} {v : V3 ℝ} (h : Fusion.vecAt l b n = some v) : n < Fusion.sizeAt l b := by
  rw [← Fusion.sizeAt_isSome]
  cases hr : Fusion.rowAt l b n with
  | none => simp [Fusion.vecAt, hr] at h
  | some r => rfl

/-! ### Projections -/

theorem proj_smooth {K : E → M4 ℝ} {X : E → V3 ℝ} (hK : SmM4 k x0 K) (hX : SmV k x0 X) (h : ((K x0).mulVec ⟨X x0, 1⟩).v.z ≠ 0) :
    Sm k x0 (fun e => (Geom.projectPoint (K e) (.inl (X e))).1) ∧ Sm k x0 fun e => (Geom.projectPoint (K e) (.inl (X e))).2 := by
  have hq : SmV k x0 fun e => ((K e).mulVec ⟨X e, 1⟩).v := (hK.R.mulVec hX).add (.smul (.const 1) hK.t)
  have hev : ∀ᶠ e in 𝓝 x0, ((K e).mulVec ⟨X e, 1⟩).v.z ≠ 0 := hq.z.continuousAt.eventually_ne h
  constructor
  · exact (hq.x.fun_div hq.z h).congr (hev.mono fun e he => by simp only [Geom.projectPoint, Geom.guardZ, if_pos he])
  · exact (hq.y.fun_div hq.z h).congr (hev.mono fun e he => by simp only [Geom.projectPoint, Geom.guardZ, if_pos he])

theorem nearest_stable {u : E → ℝ} (hu : ContinuousAt u x0) {m : Nat} (h : |u x0 - m| ≠ 1 / 2) : Stable x0 fun e => Fusion.Nearest (u e) m := by
  have hc : ContinuousAt (fun e => |u e - m|) x0 := (hu.sub continuousAt_const).abs
  refine (stable_lt hc continuousAt_const h).congr ((hc.eventually_ne h).mono fun e he => ?_)
  exact ⟨fun hn => lt_of_le_of_ne hn.1 he, fun hn => ⟨hn.le, fun h' => absurd h' he⟩⟩

theorem bounds_stable {u : E → ℝ} (hu : ContinuousAt u x0) {n : Nat} (h : OffEdge (u x0) n) :
    Stable x0 fun e => -1 / 1000 < u e ∧ u e < (n : ℝ) - 1 + 1 / 1000 :=
  (stable_lt continuousAt_const hu h.1.symm).and fun _ => stable_lt hu continuousAt_const h.2

theorem visible_stable {K : E → M4 ℝ} {X : E → V3 ℝ} (hK : SmM4 k x0 K) (hX : SmV k x0 X) {H W : Nat} (h : ((K x0).mulVec ⟨X x0, 1⟩).v.z ≠ 0)
    (hz : (X x0).z ≠ 0) (h1 : OffEdge (Geom.projectPoint (K x0) (.inl (X x0))).1 W) (h2 : OffEdge (Geom.projectPoint (K x0) (.inl (X x0))).2 H) :
    Stable x0 fun e => Fusion.Visible H W (K e) (X e) := by
  obtain ⟨p1, p2⟩ := proj_smooth hK hX h
  exact (stable_lt continuousAt_const hX.z.continuousAt hz.symm).and fun _ => (bounds_stable p1.continuousAt h1).and fun _ => bounds_stable p2.continuousAt h2

/-! ### Candidates -/

section
variable {eps d t : ℝ} {i : E → Rgbd.In ℝ} {T : E → Rgbd.TM ℝ} {a : E → Clouds ℝ}

/-- The conditions on one pair of a map point and a pixel. -/
theorem candidate_iff {nrm : V3 ℝ → ℝ} {c : Clouds ℝ} {P : List (T2 ℝ)} (hw : Wf c P) {Nn : List (T2 ℝ)} (hN : c .normals = some Nn) {fr : Fusion.Frame ℝ}
    {U : Nat → Nat → M4 ℝ} {r : Fusion.Row} (hn : r.n < Fusion.sizeAt ((c .points).getD []) r.b) :
    Fusion.Candidate nrm ((c .points).getD []) ((c .normals).getD []) fr U d t r ↔
      (r.h < fr.H ∧ r.w < fr.W) ∧ Fusion.Visible fr.H fr.W (fr.K r.b) (seenFrom U c r.b r.n) ∧
      (Fusion.Nearest (Geom.projectPoint (fr.K r.b) (.inl (seenFrom U c r.b r.n))).2 r.h ∧ Fusion.Nearest (Geom.projectPoint (fr.K r.b) (.inl (seenFrom U c r.b r.n))).1 r.w) ∧
      (nrm ((fr.gv r.b 0 r.h r.w).sub (vec (c .points) r.b r.n)) < d ∧ t < (fr.gn r.b 0 r.h r.w).dot (vec (c .normals) r.b r.n)) := by
  rw [hw.pts, Option.getD_some] at hn
  have v1 : Fusion.vecAt P r.b r.n = some (vec (c .points) r.b r.n) := vec_some hw (by simp) hw.pts hn
  have v2 : Fusion.vecAt Nn r.b r.n = some (vec (c .normals) r.b r.n) :=
    vec_some hw (by simp) hN (by rw [Fusion.sizeAt_sizes (hw.rows _ _ hN)]; exact hn)
  rw [hN, hw.pts] at *
  simp only [Option.getD_some]
  constructor
  · rintro ⟨h1, ⟨p, hp, h2, h3, h4⟩, ⟨p', m, hp', hm, h5, h6⟩⟩
    rw [v1] at hp hp'; rw [v2] at hm
    cases hp; cases hp'; cases hm
    have e : ∀ b n, seenFrom U c b n = Fusion.toCamera (U b 0) (vec (some P) b n) := fun b n => by rw [seenFrom, hw.pts]
    rw [e]
    exact ⟨h1, h2, ⟨h3, h4⟩, h5, h6⟩
  · rintro ⟨h1, h2, ⟨h3, h4⟩, h5, h6⟩
    have e : ∀ b n, seenFrom U c b n = Fusion.toCamera (U b 0) (vec (some P) b n) := fun b n => by rw [seenFrom, hw.pts]
    rw [e] at h2 h3 h4
    exact ⟨h1, ⟨_, v1, h2, h3, h4⟩, ⟨_, _, v1, v2, h5, h6⟩⟩

theorem seenFrom_smooth (ha : SmMap k x0 a) {B : Nat} (hT : SmPose k x0 B T) {b : Nat} (hb : b < B) (n : Nat) :
    SmV k x0 fun e => seenFrom (T e).at' (a e) b n :=
  (hT b hb).R.transpose.mulVec ((vec_smooth ha .points b n).sub (hT b hb).t)

/-- What is known about the map before the frame: it has points and normals, and its sizes fit. -/
structure MapNear (x0 : E) (B : Nat) (a : E → Clouds ℝ) : Prop where
  wf : ∀ᶠ e in 𝓝 x0, ∃ P Nn, Wf (a e) P ∧ P.length = B ∧ a e .normals = some Nn

theorem candidate_stable (hi : SmIn k x0 eps i) (hL : 0 < (i x0).L) (hH : 2 ≤ (i x0).H) (hW : 2 ≤ (i x0).W) (hT : SmPose k x0 (i x0).B T) (ha : SmMap k x0 a)
    (hm : MapNear x0 (i x0).B a) (ht : 0 ≤ t) (hc : CalmFuse Rgbd.nrmR eps d t x0 (fun e => posed (i e) (T e)) (fun e => (T e).at') a)
    {r : Fusion.Row} (hb : r.b < (i x0).B) (hn : r.n < Fusion.sizeAt ((a x0 .points).getD []) r.b) (hh : r.h < (i x0).H) (hw : r.w < (i x0).W) :
    Stable x0 fun e => Fusion.Candidate Rgbd.nrmR ((a e .points).getD []) ((a e .normals).getD []) (Fusion.Frame.ofIn Rgbd.nrmR eps (posed (i e) (T e))) (T e).at' d t r := by
  have hX := seenFrom_smooth ha hT hb r.n
  have hK := hi.K r.b hb
  have hev : ∀ᶠ e in 𝓝 x0, (Fusion.Candidate Rgbd.nrmR ((a e .points).getD []) ((a e .normals).getD []) (Fusion.Frame.ofIn Rgbd.nrmR eps (posed (i e) (T e))) (T e).at' d t r ↔
      Fusion.Visible (i x0).H (i x0).W ((i e).K r.b) (seenFrom (T e).at' (a e) r.b r.n) ∧
      (Fusion.Nearest (Geom.projectPoint ((i e).K r.b) (.inl (seenFrom (T e).at' (a e) r.b r.n))).2 r.h ∧
        Fusion.Nearest (Geom.projectPoint ((i e).K r.b) (.inl (seenFrom (T e).at' (a e) r.b r.n))).1 r.w) ∧
      (Rgbd.nrmR ((Rgbd.gvertexAt eps (posed (i e) (T e)) r.b 0 r.h r.w).sub (vec (a e .points) r.b r.n)) < d ∧
        t < (Rgbd.gnormalAt Rgbd.nrmR eps (posed (i e) (T e)) r.b 0 r.h r.w).dot (vec (a e .normals) r.b r.n))) := by
    filter_upwards [hm.wf, ha.size .points r.b] with e ⟨P, Nn, w, _, hN⟩ hs
    rw [candidate_iff w hN (by rw [hs]; exact hn)]
    have e1 : (Fusion.Frame.ofIn Rgbd.nrmR eps (posed (i e) (T e))).H = (i x0).H := (hi.dims e).2.2.1
    have e2 : (Fusion.Frame.ofIn Rgbd.nrmR eps (posed (i e) (T e))).W = (i x0).W := (hi.dims e).2.2.2
    rw [e1, e2]
    exact ⟨fun h => h.2, fun h => ⟨⟨hh, hw⟩, h⟩⟩
  refine Stable.congr ?_ hev
  rcases hc.proj r.b r.n hn with hz | ⟨h0, hz, ho1, ho2⟩
  · refine .inr ((hX.z.continuousAt.eventually_lt continuousAt_const hz).mono fun e he h => ?_)
    exact absurd h.1.1 (not_lt.2 he.le)
  · obtain ⟨p1, p2⟩ := proj_smooth hK hX h0
    refine (visible_stable hK hX h0 hz.ne' ho1 ho2).and fun hv => Stable.and ?_ fun _ => ?_
    · obtain ⟨q1, q2⟩ := hc.pixel r.b r.n hn hv r.h |>.2, hc.pixel r.b r.n hn hv r.w |>.1
      exact (nearest_stable p2.continuousAt q1).and fun _ => nearest_stable p1.continuousAt q2
    · have hd1 : ContinuousAt (fun e => Rgbd.nrmR ((Rgbd.gvertexAt eps (posed (i e) (T e)) r.b 0 r.h r.w).sub (vec (a e .points) r.b r.n))) x0 :=
        nrmR_cont ((gvertex_smooth hi hT hb hL hh hw).sub (vec_smooth ha .points r.b r.n))
      have hd2 : ContinuousAt (fun e => (Rgbd.gnormalAt Rgbd.nrmR eps (posed (i e) (T e)) r.b 0 r.h r.w).dot (vec (a e .normals) r.b r.n)) x0 :=
        ((gnormal_smooth hi hH hW hT hb hL hh hw).dot (vec_smooth ha .normals r.b r.n)).continuousAt
      rcases hi.seen r.b hb 0 hL r.h hh r.w hw with hs | hs
      · rcases hc.similar r.b r.n r.h r.w hn hh hw hs with h | h | ⟨h, h'⟩
        · exact .inr ((continuousAt_const.eventually_lt hd1 h).mono fun e he h => absurd h.1 he.not_gt)
        · exact .inr ((hd2.eventually_lt continuousAt_const h).mono fun e he h => absurd h.2 he.not_gt)
        · exact .inl ((hd1.eventually_lt continuousAt_const h).and (continuousAt_const.eventually_lt hd2 h'))
      · refine .inr (hs.mono fun e he h => ?_)
        have h2 := h.2
        have : Rgbd.normalAt Rgbd.nrmR eps (i e) r.b 0 r.h r.w = V3.zero := by simp only [Rgbd.normalAt, if_neg he]
        have hg : Rgbd.gnormalAt Rgbd.nrmR eps (posed (i e) (T e)) r.b 0 r.h r.w = ((T e).at' r.b 0).R.mulVec (Rgbd.normalAt Rgbd.nrmR eps (i e) r.b 0 r.h r.w) := rfl
        rw [hg, this] at h2
        simp only [M3.mulVec, V3.dot, V3.zero, mul_zero, add_zero, zero_mul] at h2
        linarith

/-- Near `x0` the candidates do not change. -/
theorem candidates_const (hi : SmIn k x0 eps i) (hL : 0 < (i x0).L) (hH : 2 ≤ (i x0).H) (hW : 2 ≤ (i x0).W) (hT : SmPose k x0 (i x0).B T) (ha : SmMap k x0 a)
    (hm : MapNear x0 (i x0).B a) (ht : 0 ≤ t) (hc : CalmFuse Rgbd.nrmR eps d t x0 (fun e => posed (i e) (T e)) (fun e => (T e).at') a) :
    ∀ᶠ e in 𝓝 x0, ∀ r, (Fusion.Candidate Rgbd.nrmR ((a e .points).getD []) ((a e .normals).getD []) (Fusion.Frame.ofIn Rgbd.nrmR eps (posed (i e) (T e))) (T e).at' d t r ↔
      Fusion.Candidate Rgbd.nrmR ((a x0 .points).getD []) ((a x0 .normals).getD []) (Fusion.Frame.ofIn Rgbd.nrmR eps (posed (i x0) (T x0))) (T x0).at' d t r) := by
  have h1 : ∀ᶠ e in 𝓝 x0, ∀ b < (i x0).B, Fusion.sizeAt ((a e .points).getD []) b = Fusion.sizeAt ((a x0 .points).getD []) b :=
    ev_lt fun b _ => ha.size .points b
  have h2 : ∀ᶠ e in 𝓝 x0, ∀ b < (i x0).B, ∀ n < Fusion.sizeAt ((a x0 .points).getD []) b, ∀ h < (i x0).H, ∀ w < (i x0).W,
      (Fusion.Candidate Rgbd.nrmR ((a e .points).getD []) ((a e .normals).getD []) (Fusion.Frame.ofIn Rgbd.nrmR eps (posed (i e) (T e))) (T e).at' d t ⟨b, n, h, w⟩ ↔
      Fusion.Candidate Rgbd.nrmR ((a x0 .points).getD []) ((a x0 .normals).getD []) (Fusion.Frame.ofIn Rgbd.nrmR eps (posed (i x0) (T x0))) (T x0).at' d t ⟨b, n, h, w⟩) :=
    ev_lt fun b hb => ev_lt fun n hn => ev_lt fun h hh => ev_lt fun w hw =>
      (candidate_stable hi hL hH hW hT ha hm ht hc (r := ⟨b, n, h, w⟩) hb hn hh hw).iff
  have hin : ∀ e, (∃ P Nn, Wf (a e) P ∧ P.length = (i x0).B ∧ a e .normals = some Nn) → (∀ b < (i x0).B, Fusion.sizeAt ((a e .points).getD []) b = Fusion.sizeAt ((a x0 .points).getD []) b) →
      ∀ r, Fusion.Candidate Rgbd.nrmR ((a e .points).getD []) ((a e .normals).getD []) (Fusion.Frame.ofIn Rgbd.nrmR eps (posed (i e) (T e))) (T e).at' d t r →
        r.b < (i x0).B ∧ r.n < Fusion.sizeAt ((a x0 .points).getD []) r.b ∧ r.h < (i x0).H ∧ r.w < (i x0).W := by
    rintro e ⟨P, Nn, w, hP, hN⟩ hs r hr
    obtain ⟨p, hp, _⟩ := hr.visible
    have hlt := vecAt_size hp
    have hb : r.b < (i x0).B := by
      by_contra hb
      rw [w.pts, Option.getD_some, sizeAt_big (by omega)] at hlt
      omega
    refine ⟨hb, by rw [← hs r.b hb]; exact hlt, ?_, ?_⟩
    · rw [← (hi.dims e).2.2.1]; exact hr.pix.1
    · rw [← (hi.dims e).2.2.2]; exact hr.pix.2
  filter_upwards [h1, h2, hm.wf] with e s1 s2 w r
  constructor
  · intro hr
    obtain ⟨q1, q2, q3, q4⟩ := hin e w s1 r hr
    exact (s2 r.b q1 r.n q2 r.h q3 r.w q4).1 hr
  · intro hr
    obtain ⟨q1, q2, q3, q4⟩ := hin x0 hm.wf.self_of_nhds (fun b _ => rfl) r hr
    exact (s2 r.b q1 r.n q2 r.h q3 r.w q4).2 hr

/-! ### The table of merged pixels -/

/-- The table contains the candidates that are preferred to all others at their pixel. -/
theorem table_iff {S : Sys ℝ} {j : Rgbd.In ℝ} {U : Nat → Nat → M4 ℝ} {c c' : Clouds ℝ} {P P' : List (T2 ℝ)} {rows : List Fusion.Row}
    (f : FusionStep S d t j U c c' P P' rows) {Nn F : List (T2 ℝ)} (hN : c .normals = some Nn) (hF : c .features = some F) (r : Fusion.Row) :
    r ∈ rows ↔ Fusion.Candidate S.nrm P Nn (view S j) U d t r ∧
      ∀ s, Fusion.Candidate S.nrm P Nn (view S j) U d t s → s.b = r.b ∧ s.h = r.h ∧ s.w = r.w → Fusion.Preferred P F (view S j) r s := by
  constructor
  · refine fun hr => ⟨f.cand Nn hN r hr, fun s hs e => ?_⟩
    obtain ⟨q, hq, e', hp⟩ := f.best Nn F hN hF s hs
    have : q = r := same_pixel f.pix hq hr ⟨e'.1.trans e.1, e'.2.1.trans e.2.1, e'.2.2.trans e.2.2⟩
    rw [← this]; exact hp
  · rintro ⟨hc, hp⟩
    obtain ⟨q, hq, e, hp'⟩ := f.best Nn F hN hF r hc
    have := hp q (f.cand Nn hN q hq) e
    have hn : q.n = r.n := by
      unfold Fusion.Preferred at this hp'
      rcases this with h | ⟨h, h1⟩ <;> rcases hp' with h' | ⟨h', h1'⟩
      · exact absurd h h'.not_gt
      · rw [h'] at h; exact absurd h (lt_irrefl _)
      · rw [h] at h'; exact absurd h' (lt_irrefl _)
      · rcases h1 with h1 | ⟨h1, h2⟩ <;> rcases h1' with h1' | ⟨h1', h2'⟩
        · exact absurd h1 h1'.not_gt
        · rw [h1'] at h1; exact absurd h1 (lt_irrefl _)
        · rw [h1] at h1'; exact absurd h1' (lt_irrefl _)
        · omega
    have : q = r := Fusion.Row.ext e.1 hn e.2.1 e.2.2
    rw [← this]; exact hq

end
end Verif.Slam

import Verif.Slam.Order
import Verif.Slam.Witness
import Verif.Icp.SmoothWitness
import Verif.Icp.ConvergeWitness
/-!
C97: concrete cases, and why ties have to be excluded.
-/
namespace Verif.Slam
open Verif Pcs
set_option maxRecDepth 100000

/-! ### Maps -/

/-- A map of three points with confidences 1, 2, 3, listed in the order `o`. -/
def mapO (o : List Nat) : Clouds ℚ
  | .points => some [⟨o.map fun n => [[-1, -1, 2], [0, -1, 2], [-1, 0, 2]].getD n [], 3⟩]
  | .normals => some [⟨o.map fun n => [[0, 0, 1], [0, 3 / 5, 4 / 5], [2 / 3, 0, 1 / 3]].getD n [], 3⟩]
  | .colors => some [⟨o.map fun n => [[1, 2, 3], [4, 5, 6], [7, 8, 9]].getD n [], 3⟩]
  | .features => some [⟨o.map fun n => [[1], [2], [3]].getD n [], 1⟩]

/-- The same map without confidences, as `ICPSLAM` keeps it. -/
def mapA (o : List Nat) : Clouds ℚ := fun X => if X = .features then none else mapO o X

def swapO : Nat → Equiv.Perm Nat := fun b => if b = 0 then Equiv.swap 0 2 else 1

theorem rowO (X : Attr) : ∃ l m, mapO [0, 1, 2] X = some l ∧ mapO [2, 1, 0] X = some m ∧ m.length = l.length ∧
    ∀ b n, Fusion.rowAt m b (swapO b n) = Fusion.rowAt l b n := by
  have key : ∀ x y z : List ℚ, ∀ C b n, Fusion.rowAt [⟨[z, y, x], C⟩] b (swapO b n) = Fusion.rowAt [⟨[x, y, z], C⟩] b n := by
    intro x y z C b n
    match b with
    | b + 1 => simp [Fusion.rowAt]
    | 0 =>
      match n with
      | 0 => simp [Fusion.rowAt, swapO]
      | 1 => rw [show swapO 0 1 = 1 by decide]; rfl
      | 2 => simp [Fusion.rowAt, swapO]
      | n + 3 => rw [show swapO 0 (n + 3) = n + 3 from Equiv.swap_apply_of_ne_of_ne (by omega) (by omega)]; rfl
  cases X <;> exact ⟨_, _, rfl, rfl, rfl, key _ _ _ _⟩

theorem reordered_O : Reordered swapO (mapO [0, 1, 2]) (mapO [2, 1, 0]) := by
  refine ⟨fun X => ?_, fun X l m hl hm => ?_, fun X l m hl hm => ?_, fun b n hn => ?_⟩
  · obtain ⟨l, m, h1, h2, _⟩ := rowO X; rw [h1, h2]; simp
  · obtain ⟨_, _, h1, h2, h3, _⟩ := rowO X; rw [h1] at hl; rw [h2] at hm; cases hl; cases hm; exact h3
  · obtain ⟨_, _, h1, h2, _, h3⟩ := rowO X; rw [h1] at hl; rw [h2] at hm; cases hl; cases hm; exact h3
  · have := hn _ rfl
    match b with
    | b + 1 => rfl
    | 0 => exact Equiv.swap_apply_of_ne_of_ne (by rintro rfl; revert this; decide) (by rintro rfl; revert this; decide)

theorem reordered_A : Reordered swapO (mapA [0, 1, 2]) (mapA [2, 1, 0]) := by
  obtain ⟨h1, h2, h3, h4⟩ := reordered_O
  have e : ∀ o X l, mapA o X = some l → mapO o X = some l := by
    intro o X l h; unfold mapA at h; split_ifs at h; exact h
  refine ⟨fun X => ?_, fun X l m hl hm => h2 X l m (e _ _ _ hl) (e _ _ _ hm), fun X l m hl hm => h3 X l m (e _ _ _ hl) (e _ _ _ hm),
    fun b n hn => h4 b n fun l hl => hn l hl⟩
  unfold mapA; split_ifs
  · simp
  · exact h1 X

def pts (o : List Nat) : List (T2 ℚ) := [⟨o.map fun n => [[-1, -1, 2], [0, -1, 2], [-1, 0, 2]].getD n [], 3⟩]

/-- `Pointclouds(points=[…], …)` with the attributes of a map. -/
def made (m : List Nat → Clouds ℚ) (o : List Nat) : PC ℚ := match newList (m o) (pts o) with
  | .ok s => s
  | .error _ => newEmpty

theorem made_hist {m : List Nat → Clouds ℚ} {o : List Nat} (hm : m = mapO ∨ m = mapA) (h : o = [0, 1, 2] ∨ o = [2, 1, 0]) : Hist (made m o) (m o) ∧ ((made m o).lst .points).isSome := by
  have v : ∀ o, o = [0, 1, 2] ∨ o = [2, 1, 0] → ∀ X l, mapO o X = some l → ∀ t ∈ l, t.Valid := by
    intro o h X l hl t ht r hr
    rcases h with rfl | rfl <;> cases X <;> (simp only [mapO, Option.some.injEq] at hl; subst hl; simp at ht; subst ht; simp at hr; rcases hr with rfl | rfl | rfl <;> rfl)
  rcases hm with rfl | rfl
  · have : newList (mapO o) (pts o) = .ok (made mapO o) := by rcases h with rfl | rfl <;> rfl
    exact ⟨Hist.fromList rfl (v o h) this, by rcases h with rfl | rfl <;> rfl⟩
  · have : newList (mapA o) (pts o) = .ok (made mapA o) := by rcases h with rfl | rfl <;> rfl
    refine ⟨Hist.fromList rfl (fun X l hl => v o h X l ?_) this, by rcases h with rfl | rfl <;> rfl⟩
    unfold mapA at hl; split_ifs at hl; exact hl

theorem ok_fusion {o : List Nat} (h : o = [0, 1, 2] ∨ o = [2, 1, 0]) : MapOk gtFusion.mapper 1 (made mapO o) (mapO o) := by
  obtain ⟨h1, h2⟩ := made_hist (.inl rfl) h
  refine ⟨h1.inv, fun _ => h2, fun P hP => ?_⟩
  cases hP
  refine ⟨rfl, rfl, rfl, _, rfl, fun t ht => ?_, fun b n hs => ?_⟩
  · simp at ht; subst ht; rfl
  · match b with
    | b + 1 => simp [Fusion.rowAt] at hs
    | 0 =>
      rcases h with rfl | rfl <;> match n with
      | 0 => decide +kernel
      | 1 => decide +kernel
      | 2 => decide +kernel
      | n + 3 => simp [Fusion.rowAt] at hs

theorem ok_slam {o : List Nat} (h : o = [0, 1, 2] ∨ o = [2, 1, 0]) : MapOk gtSlam.mapper 1 (made mapA o) (mapA o) := by
  obtain ⟨h1, h2⟩ := made_hist (.inr rfl) h
  refine ⟨h1.inv, fun _ => h2, fun P hP => ?_⟩
  cases hP
  exact ⟨rfl, rfl, rfl, rfl⟩

/-- Points with different confidences never tie. -/
theorem noTie_O (S : Sys ℚ) (d t : ℚ) (i : Rgbd.In ℚ) (T : Nat → Nat → M4 ℚ) : NoTie S d t i T (mapO [0, 1, 2]) := by
  intro P Nn F hP _ hF r s cr cs hb _ _ hc _
  cases hP; cases hF
  obtain ⟨_, ⟨p, hp, _⟩, _⟩ := cr
  obtain ⟨_, ⟨q, hq, _⟩, _⟩ := cs
  rw [← hb] at hq hc
  generalize r.b = b at hp hq hc
  generalize r.n = n at hp hc ⊢
  generalize s.n = m at hq hc ⊢
  match b with
  | b + 1 => simp [Fusion.vecAt, Fusion.rowAt] at hp
  | 0 =>
    have hn : n < 3 := by
      by_contra hh
      obtain ⟨k, rfl⟩ := Nat.exists_eq_add_of_le (not_lt.1 hh)
      simp [Fusion.vecAt, Fusion.rowAt] at hp
    have hm : m < 3 := by
      by_contra hh
      obtain ⟨k, rfl⟩ := Nat.exists_eq_add_of_le (not_lt.1 hh)
      simp [Fusion.vecAt, Fusion.rowAt] at hq
    clear hp hq hb
    interval_cases n <;> interval_cases m <;> first | rfl | (exfalso; revert hc; decide +kernel)


/-! ### Steps -/

/-- The second frame of the sequence of `Witness.lean`. -/
def frameO : Rgbd.Obj ℚ := match frameAt seqW 1 with
  | .ok o => o
  | .error _ => seqW
def inO : Rgbd.In ℚ := { snap inW 1 with poses := (given seqW inW 1).map Rgbd.TM.at' }

theorem frameO_ok (S : Sys ℚ) (h : SeqOk S seqW inW) : LiveOk S frameO inO := by
  obtain ⟨o, e, ok, _⟩ := frameAt_live h (show seqW.poses = some poseW from rfl) (t := 1) (by decide)
  have : frameO = o := by rw [frameO, e]
  rw [this]; exact ok

theorem mapCond_O (T : Rgbd.TM ℚ) : MapCond gtFusion (posed inO T) (mapO [0, 1, 2]) := by
  refine .inr ⟨fun _ => one_pos, fun P hP => ?_⟩
  cases hP
  refine ⟨show inO.B ≤ 2 ^ 24 by decide, show inO.H ≤ 2 ^ 24 by decide, show inO.W ≤ 2 ^ 24 by decide, fun b => ?_⟩
  match b with
  | 0 => decide
  | b + 1 => simp [Fusion.sizeAt]

/-- The hypotheses of `step_order` and `feed_order` are met by `PointFusion(odom="gt")`, the map above in two orders, and this frame. -/
theorem order_hypotheses : Reordered swapO (mapO [0, 1, 2]) (mapO [2, 1, 0]) ∧ MapOk gtFusion.mapper inO.B (made mapO [0, 1, 2]) (mapO [0, 1, 2]) ∧
    MapOk gtFusion.mapper inO.B (made mapO [2, 1, 0]) (mapO [2, 1, 0]) ∧ LiveOk gtFusion frameO inO ∧ PrevOk gtFusion inO (mapO [0, 1, 2]) none ∧
    Calm gtFusion (made mapO [0, 1, 2]) none [(frameO, inO)] := by
  obtain ⟨_, ⟨h, _⟩, _⟩ := slam_hypotheses
  refine ⟨reordered_O, ok_fusion (.inl rfl), ok_fusion (.inr rfl), frameO_ok _ h, .inl rfl, fun a ha => ?_, fun _ _ _ => trivial⟩
  have : a = mapO [0, 1, 2] := by
    funext X; rw [← (inv_obs ha).list X, (inv_obs (ok_fusion (.inl rfl)).inv).list X]
  subst this
  exact ⟨mapCond_O, fun _ _ _ _ _ _ _ h => (by cases h), fun _ T _ d t _ => noTie_O _ d t _ _⟩

/-- Points, colours and confidences of the first cloud after a step. -/
def afterO (S : Sys ℚ) (pc : PC ℚ) : List (List ℚ) × List (List ℚ) × List (List ℚ) :=
  match step S pc frameO none true with
  | (.ok (m, _), _, _) => (rd .points m, rd .colors m, rd .features m)
  | _ => ([], [], [])
where
  /-- The rows of the first cloud. -/
  rd (X : Attr) (m : PC ℚ) : List (List ℚ) := (((getList X m).1.getD []).getD 0 ⟨[], 0⟩).rows


/-- Two points at the same place with the same confidence, but different colours. -/
def mapT (o : List Nat) : Clouds ℚ
  | .points => some [⟨o.map fun _ => [-1, 0, 2], 3⟩]
  | .normals => some [⟨o.map fun _ => [2 / 3, 0, 1 / 3], 3⟩]
  | .colors => some [⟨o.map fun n => [[1, 2, 3], [7, 8, 9]].getD n [], 3⟩]
  | .features => some [⟨o.map fun _ => [1], 1⟩]
def madeT (o : List Nat) : PC ℚ := match newList (mapT o) [⟨o.map fun _ => [-1, 0, 2], 3⟩] with
  | .ok s => s
  | .error _ => newEmpty

/-- The step merges a pixel into the third point of the first map, which is the first point of the second, and appends two pixels: the maps
list the same points again. -/
theorem order_case : afterO gtFusion (made mapO [0, 1, 2]) =
      ([[-1, -1, 2], [0, -1, 2], [-37 / 32, 0, 9 / 4], [-13 / 8, -3 / 2, 3], [-1 / 8, -3 / 2, 3]],
        [[1, 2, 3], [4, 5, 6], [23 / 4, 27 / 4, 31 / 4], [1, 2, 3], [2, 3, 4]], [[1], [2], [4], [1], [1]]) ∧
    afterO gtFusion (made mapO [2, 1, 0]) =
      ([[-37 / 32, 0, 9 / 4], [0, -1, 2], [-1, -1, 2], [-13 / 8, -3 / 2, 3], [-1 / 8, -3 / 2, 3]],
        [[23 / 4, 27 / 4, 31 / 4], [4, 5, 6], [1, 2, 3], [1, 2, 3], [2, 3, 4]], [[4], [2], [1], [1], [1]]) := by
  refine ⟨by decide +kernel, by decide +kernel⟩

/-- The hypotheses of `icpslam_gt_order` are met by `ICPSLAM(odom="gt")`, the map in two orders, and the frame twice. -/
theorem order_hypotheses_gt : Reordered swapO (mapA [0, 1, 2]) (mapA [2, 1, 0]) ∧ MapOk gtSlam.mapper 1 (made mapA [0, 1, 2]) (mapA [0, 1, 2]) ∧
    MapOk gtSlam.mapper 1 (made mapA [2, 1, 0]) (mapA [2, 1, 0]) ∧ ∀ x ∈ [(frameO, inO), (frameO, inO)], LiveOk gtSlam x.1 x.2 ∧ x.2.B = 1 := by
  obtain ⟨⟨h, _⟩, _⟩ := slam_hypotheses
  refine ⟨reordered_A, ok_slam (.inl rfl), ok_slam (.inr rfl), fun x hx => ?_⟩
  obtain rfl : x = (frameO, inO) := by simpa using hx
  exact ⟨frameO_ok _ h, rfl⟩

/-- **C97** (why ties are excluded, fusion).  Of two points at the same place with the same confidence the pixel is merged into the one
listed first: the two orders give maps with different colours. -/
theorem fusion_tie : afterO gtFusion (madeT [0, 1]) =
      ([[-21 / 16, 0, 5 / 2], [-1, 0, 2], [-13 / 8, -3 / 2, 3], [-1 / 8, -3 / 2, 3]],
        [[3 / 2, 5 / 2, 7 / 2], [7, 8, 9], [1, 2, 3], [2, 3, 4]], [[2], [1], [1], [1]]) ∧
    afterO gtFusion (madeT [1, 0]) =
      ([[-21 / 16, 0, 5 / 2], [-1, 0, 2], [-13 / 8, -3 / 2, 3], [-1 / 8, -3 / 2, 3]],
        [[9 / 2, 11 / 2, 13 / 2], [1, 2, 3], [1, 2, 3], [2, 3, 4]], [[2], [1], [1], [1]]) := by
  refine ⟨by decide +kernel, by decide +kernel⟩

/-! ### Registration -/

theorem tie_first (c z : ℝ) (h : |z - c| ≤ |z + c|) : Icp.bruteNN [⟨0, 0, c⟩, ⟨0, 0, -c⟩] ⟨0, 0, z⟩ = 0 := by
  have : ¬ (z + c) * (z + c) < (z - c) * (z - c) := by
    rw [not_lt]; nlinarith [sq_le_sq.2 h]
  simp [Icp.bruteNN, V3.normSq, V3.dot, V3.sub, this]

/-- One iteration for a point halfway between two targets: it moves towards the one listed first. -/
theorem icp_tie_step {eps : ℝ} (heps : 0 < eps) {c : ℝ} (hc : c ≠ 0) :
    Icp.pointToPlaneICP eps Icp.bruteNN [⟨0, 0, 0⟩] [⟨0, 0, c⟩, ⟨0, 0, -c⟩] [⟨0, 0, 1⟩, ⟨0, 0, 1⟩] (some M4.one) 1 1 none = .ok (Icp.slide (c / 2), [0]) := by
  obtain ⟨T, d, h0, hd0, tr, e⟩ := Icp.icp_is_lm (th := none) Icp.bruteNN_nearest (tgt := [⟨0, 0, c⟩, ⟨0, 0, -c⟩]) (nrm := [⟨0, 0, 1⟩, ⟨0, 0, 1⟩])
    (by simp) rfl eps [⟨0, 0, 0⟩] M4.one_rigid.1 one_pos le_rfl
  obtain ⟨v, w, s, r⟩ := tr.step 0 (by decide)
  have n0 := tie_first c 0 (by simp)
  have hid : Geom.transformPointcloud (M4.one : M4 ℝ) [⟨0, 0, 0⟩] = [⟨0, 0, 0⟩] := by rw [← Icp.slide_zero, Icp.slide_cloud, add_zero]
  rw [h0, hd0, hid] at s
  obtain ⟨rfl, rfl⟩ := Icp.axis_step one_pos (c := c) (by rw [n0]; rfl) (by rw [n0]; rfl) s
  have ev : Geom.se3Exp eps ⟨0, 0, -(0 - c) / (1 + 1)⟩ V3.zero = Icp.slide (c / 2) := by
    rw [Geom.se3_exp_translation eps heps]
    simp only [Icp.slide, M4.mk.injEq, V3.mk.injEq, true_and, and_true]; ring
  have n1 := tie_first c (c / 2) (by
    rw [show c / 2 - c = -(c / 2) by ring, abs_neg, show c / 2 + c = 3 * (c / 2) by ring, abs_mul]
    have := abs_nonneg (c / 2); norm_num; linarith)
  rw [h0, ev, ← Icp.slide_zero, Icp.slide_mul, add_zero, Icp.slide_cloud, Icp.slide_cloud, add_zero, zero_add,
    Icp.axis_err (c := c) (by rw [n1]; rfl) (by rw [n1]; rfl), Icp.axis_err (c := c) (by rw [n0]; rfl) (by rw [n0]; rfl)] at r
  have hlt : (c / 2 - c) ^ 2 < (0 - c) ^ 2 := by nlinarith [sq_pos_of_ne_zero hc]
  rcases r with ⟨_, r, _⟩ | ⟨r, _⟩
  · rw [e]
    have : (T (Int.toNat 1)) = Icp.slide (c / 2) := r
    rw [this]
    simp only [Int.toNat_one, Nat.sub_self, h0, hid]
    simp [Icp.taking, Icp.Close, n0]
  · exact absurd hlt (not_lt.2 r)

/-- **C97** (why ties are excluded, registration).  A point halfway between two targets moves towards the one listed first: listing the same
two targets in the other order turns the translation round. -/
theorem icp_tie {eps : ℝ} (heps : 0 < eps) :
    Icp.pointToPlaneICP eps Icp.bruteNN [⟨0, 0, 0⟩] [⟨0, 0, 1⟩, ⟨0, 0, -1⟩] [⟨0, 0, 1⟩, ⟨0, 0, 1⟩] (some M4.one) 1 1 none = .ok (Icp.slide (1 / 2), [0]) ∧
    Icp.pointToPlaneICP eps Icp.bruteNN [⟨0, 0, 0⟩] [⟨0, 0, -1⟩, ⟨0, 0, 1⟩] [⟨0, 0, 1⟩, ⟨0, 0, 1⟩] (some M4.one) 1 1 none = .ok (Icp.slide (-1 / 2), [0]) ∧
    Icp.slide (1 / 2) ≠ Icp.slide (-1 / 2) := by
  refine ⟨icp_tie_step heps one_ne_zero, ?_, fun h => ?_⟩
  · have := icp_tie_step heps (c := -1) (by norm_num)
    rw [neg_neg] at this; exact this
  · have := congrArg (fun T : M4 ℝ => T.t.z) h
    simp only [Icp.slide] at this
    norm_num at this

/-- The hypotheses of `icp_order` and `gradicp_order` are met: three targets, two of them on one plane, the third far away; matching radius 1. -/
theorem icp_order_case : ∃ tgt nrm tgt2 nrm2 : List (V3 ℝ), Icp.Reorders tgt nrm tgt2 nrm2 ∧ Icp.Spaced 1 tgt nrm ∧ tgt ≠ tgt2 ∧
    ∀ eps > 0, ∀ n : Int, ∀ src : List (V3 ℝ), Icp.SameAnswer Icp.bruteNN tgt tgt2 (Icp.pointToPlaneICP eps Icp.bruteNN src tgt nrm (some M4.one) n 1 (some 1))
      (Icp.pointToPlaneICP eps Icp.bruteNN src.reverse tgt2 nrm2 (some M4.one) n 1 (some 1)) := by
  have hs : Icp.Spaced 1 [⟨0, 0, 1⟩, ⟨1, 0, 1⟩, ⟨0, 0, 5⟩] [⟨0, 0, 1⟩, ⟨0, 0, 1⟩, ⟨0, 1, 0⟩] := by
    intro k j q m q' m' h1 h2 h3 h4
    have hk : k < 3 := by simpa using (List.getElem?_eq_some_iff.1 h1).1
    have hj : j < 3 := by simpa using (List.getElem?_eq_some_iff.1 h3).1
    interval_cases k <;> interval_cases j <;> simp at h1 h2 h3 h4 <;> subst h1 <;> subst h2 <;> subst h3 <;> subst h4 <;>
      first
      | (right; intro p; simp [V3.dot, V3.sub]; done)
      | (left; simp [V3.normSq, V3.dot, V3.sub]; norm_num; done)
  have hr : Icp.Reorders [⟨0, 0, 1⟩, ⟨1, 0, 1⟩, ⟨0, 0, 5⟩] [⟨0, 0, 1⟩, ⟨0, 0, 1⟩, ⟨0, 1, 0⟩] [⟨0, 0, 5⟩, ⟨1, 0, 1⟩, ⟨0, 0, 1⟩] [⟨0, 1, 0⟩, ⟨0, 0, 1⟩, ⟨(0 : ℝ), 0, 1⟩] :=
    ⟨by simp, (List.reverse_perm [(⟨0, 0, 1⟩ : V3 ℝ), ⟨1, 0, 1⟩, ⟨0, 0, 5⟩]),
      (List.reverse_perm [((⟨0, 0, 1⟩ : V3 ℝ), (⟨0, 0, 1⟩ : V3 ℝ)), (⟨1, 0, 1⟩, ⟨0, 0, 1⟩), (⟨0, 0, 5⟩, ⟨0, 1, 0⟩)])⟩
  refine ⟨_, _, _, _, hr, hs, by simp, fun eps heps n src => ?_⟩
  exact Icp.icp_order Icp.bruteNN_nearest heps (List.reverse_perm _) hr M4.one_rigid.1 n one_pos fun _ _ _ _ _ => Icp.untiedRun_of_spaced hs _ _ _

open Icp.ConvergeWitness in
/-- The hypotheses of `providers_order_spaced` are met by the clouds of `ConvergeWitness.lean`: six map points per cloud, matching radius `√½`. -/
theorem providers_order_case : ∃ maps' frames', Inv maps' maps ∧ Inv frames' frames ∧ ∀ n : Int,
    OrderFree (Icp.provide fun src tgt nrm T0 => Icp.pointToPlaneICP (1 / 10 ^ 6) Icp.bruteNN src tgt nrm T0 n (1 / 10 ^ 8) (some (1 / 2))) maps' frames' ∧
    OrderFree (Icp.provide fun src tgt nrm T0 => Icp.pointToPlaneGradICP (1 / 10 ^ 6) 2 1 1 200 Icp.bruteNN src tgt nrm T0 n (1 / 10 ^ 8) (some (1 / 2)))
      maps' frames' := by
  obtain ⟨m, f, hm, hf⟩ := provider_clouds
  have hs : Icp.Spaced (1 / 2) tgt nrm := by
    intro k j q m q' m' h1 h2 h3 h4
    have hk : k < 6 := by simpa [tgt, places] using (List.getElem?_eq_some_iff.1 h1).1
    have hj : j < 6 := by simpa [tgt, places] using (List.getElem?_eq_some_iff.1 h3).1
    interval_cases k <;> interval_cases j <;> simp [tgt, nrm, places] at h1 h2 h3 h4 <;> subst h1 <;> subst h2 <;> subst h3 <;> subst h4 <;>
      first
      | (right; intro p; rfl)
      | (left; simp only [V3.normSq, V3.dot, V3.sub]; norm_num; done)
  refine ⟨m, f, hm, hf, fun n => providers_order_spaced Icp.bruteNN_nearest (by norm_num) one_lt_two n (by norm_num) hm hf rfl rfl rfl fun b q mm hq hmm => ?_⟩
  match b with
  | 0 => cases hq; cases hmm; rw [vecs_cloud, vecs_cloud]; exact hs
  | 1 => cases hq; cases hmm; rw [vecs_cloud, vecs_cloud]; exact hs
  | b + 2 => simp at hq

end Verif.Slam

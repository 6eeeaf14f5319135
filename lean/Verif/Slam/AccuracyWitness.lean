import Verif.Slam.Accuracy
import Verif.Icp.ConvergeWitness
/-!
A concrete case for C96: the corner of a room, seen by six sampled pixels from two poses.
-/
namespace Verif.Slam
open Verif Pcs Geom
open Verif.Icp (Within Place Scene)
open Verif.Icp.ConvergeWitness (h G0 G0_rigid G0_moves ten weight le_of_normSq ge_of_normSq icp_bound grad_bound)
set_option maxRecDepth 100000

/-- Tangent of half the turn between the two frames, its cosine and sine. -/
def hq : ℚ := 1 / 2 ^ 17
def cosQ : ℚ := (1 - hq ^ 2) / (1 + hq ^ 2)
def sinQ : ℚ := 2 * hq / (1 + hq ^ 2)

/-- First frame: depth at row, column.  The walls are the planes `x = 1`, `y = 1` and `z = 2` in front of the camera; next to each sampled pixel its right and
lower neighbours. -/
def cornerQ : List ((Nat × Nat) × ℚ) :=
  [((0, 6), 2), ((0, 7), 12 / 7), ((1, 6), 2), ((12, 6), 2), ((12, 7), 12 / 7), ((13, 6), 2),
   ((4, 4), 3), ((4, 5), 3), ((5, 4), 12 / 5), ((12, 12), 1), ((12, 13), 1), ((13, 12), 12 / 13),
   ((6, 0), 2), ((6, 1), 2), ((7, 0), 2), ((6, 12), 2), ((6, 13), 2), ((7, 12), 2)]
/-- Second frame: the walls from the second pose, at the sampled pixels; one depth is off by `10⁻¹⁰`. -/
def cornerQ' : List ((Nat × Nat) × ℚ) :=
  [((0, 6), 12 * (cosQ - sinQ - 2 * hq) / (cosQ * 6)), ((12, 6), 12 * (cosQ - sinQ - 2 * hq) / (cosQ * 6 - sinQ * 12)),
   ((4, 4), 12 * (sinQ + cosQ) / (sinQ * 4 + cosQ * 4)), ((12, 12), 12 * (sinQ + cosQ) / (sinQ * 12 + cosQ * 12)),
   ((6, 0), 2 + 1 / 10 ^ 10), ((6, 12), 2)]
def depthQ (t y x : Nat) : ℚ := ((if t = 0 then cornerQ else cornerQ').lookup (y, x)).getD 0

noncomputable def rgbA : Rgbd.T5 ℝ := ⟨⟨1, 2, 14, 14, 3⟩, fun _ _ h w c => h + w + c⟩
noncomputable def depthA : Rgbd.T5 ℝ := ⟨⟨1, 2, 14, 14, 1⟩, fun _ t y x _ => depthQ t y x⟩
noncomputable def KA : Rgbd.TM ℝ := ⟨1, 1, fun _ _ => ⟨⟨⟨12 - 1 / 10 ^ 6, 0, 0⟩, ⟨0, 12 - 1 / 10 ^ 6, 0⟩, ⟨0, 0, 1⟩⟩, .zero, .zero, 1⟩⟩
/-- The first pose; the second given pose is wrong and not used. -/
noncomputable def poseA : Rgbd.TM ℝ := ⟨1, 2, fun _ _ => ⟨.one, ⟨-1, -1, -2⟩, .zero, 1⟩⟩
noncomputable def seqA : Rgbd.Obj ℝ := ⟨false, rgbA, depthA, KA, some poseA, none, none, none, none, none, none, rgbA.sh, none, 1, 2, 14, 14⟩
noncomputable def inA : Rgbd.In ℝ := Rgbd.inputsOf rgbA depthA KA (some poseA) false none
theorem seqA_new : Rgbd.new rgbA depthA KA (some poseA) false none = .ok seqA := rfl
noncomputable def paramsA : Params := ⟨2, 10, 1 / 10 ^ 8, some 1, 2, 1, 1, 200⟩
noncomputable def sysA (o : Odom ℝ) : Sys ℝ := ⟨o, 2, .aggregate, Rgbd.nrmR, Fusion.getAlpha (6 / 10) (1 / 10 ^ 7), 1 / 10 ^ 6⟩
/-- The true poses. -/
noncomputable def P0A : M4 ℝ := ⟨.one, ⟨-1, -1, -2⟩, .zero, 1⟩
noncomputable def P1A : M4 ℝ := G0.mul P0A

theorem depthA_at (b t y x : Nat) : inA.depth b t y x = (depthQ t y x : ℝ) := rfl

theorem grid_Q (o : Odom ℝ) (b t : Nat) : gridPixels (sysA o) inA b t =
    (((List.range 14).flatMap fun y => (List.range 14).map fun x => (y, x)).filter fun x => decide (0 < depthQ t x.1 x.2)).filter
      fun x => decide ((2 : Int) ∣ (x.1 : Int) ∧ (2 : Int) ∣ (x.2 : Int)) := by
  rw [gridPixels, depthPixels]
  have e1 : inA.H = 14 := rfl
  have e2 : inA.W = 14 := rfl
  have e3 : (sysA o).ds = 2 := rfl
  simp only [e1, e2, e3, depthA_at, Rat.cast_pos]

theorem grid0 (o : Odom ℝ) : gridPixels (sysA o) inA 0 0 = [(0, 6), (4, 4), (6, 0), (6, 12), (12, 6), (12, 12)] := by
  rw [grid_Q]; decide +kernel
theorem grid1 (o : Odom ℝ) : gridPixels (sysA o) inA 0 1 = [(0, 6), (4, 4), (6, 0), (6, 12), (12, 6), (12, 12)] := by
  rw [grid_Q]; decide +kernel

theorem vertexA {t y x : Nat} {d : ℚ} (hy : y < 14) (hx : x < 14) (hd : depthQ t y x = d) (h0 : 0 < d) :
    Rgbd.vertexAt (1 / 10 ^ 6) inA 0 t y x = ⟨d * (x / 12), d * (y / 12), d⟩ := by
  rw [Rgbd.vertexAt, depthA_at, hd, if_pos (by exact_mod_cast h0), show inA.pix 0 t y x = ⟨(x : ℝ), (y : ℝ), 1⟩ from Rgbd.default_pixels seqA_new 0 t y x hy hx]
  have e : inA.K 0 = ⟨⟨⟨12 - 1 / 10 ^ 6, 0, 0⟩, ⟨0, 12 - 1 / 10 ^ 6, 0⟩, ⟨0, 0, 1⟩⟩, .zero, .zero, 1⟩ := rfl
  rw [e]
  ext <;> simp [Rgbd.backproj]

theorem unit_axis {v : V3 ℝ} {c : ℝ} (hc : 0 < c) (e : V3 ℝ) (h1 : e.dot e = 1) (hv : v = e.smul c) : Rgbd.unit Rgbd.nrmR v = e := by
  have h2 : Rgbd.nrmR v = c := by
    rw [Rgbd.nrmR, hv]
    have : (e.smul c).dot (e.smul c) = c ^ 2 := by
      simp only [V3.dot, V3.smul] at h1 ⊢
      linear_combination c ^ 2 * h1
    rw [this, Real.sqrt_sq hc.le]
  rw [Rgbd.unit, h2, if_neg hc.ne', hv]
  ext <;> simp [V3.smul] <;> field_simp

theorem normalA {y x : Nat} {d d1 d2 : ℚ} (hy : y < 13) (hx : x < 13) (hd : depthQ 0 y x = d) (hd1 : depthQ 0 y (x + 1) = d1) (hd2 : depthQ 0 (y + 1) x = d2)
    (h0 : 0 < d) (h1 : 0 < d1) (h2 : 0 < d2) {c : ℝ} (hc : 0 < c) (e : V3 ℝ) (he : e.dot e = 1)
    (hv : (V3.sub ⟨(d1 : ℝ) * ((x + 1) / 12), d1 * (y / 12), d1⟩ ⟨d * (x / 12), d * (y / 12), d⟩).cross
      (V3.sub ⟨(d2 : ℝ) * (x / 12), d2 * ((y + 1) / 12), d2⟩ ⟨d * (x / 12), d * (y / 12), d⟩) = e.smul c) :
    Rgbd.normalAt Rgbd.nrmR (1 / 10 ^ 6) inA 0 0 y x = e := by
  have e1 : inA.H = 14 := rfl
  have e2 : inA.W = 14 := rfl
  rw [Rgbd.normalAt, if_pos (by rw [depthA_at, hd]; exact_mod_cast h0)]
  refine unit_axis hc e he ?_
  rw [Rgbd.tanW, Rgbd.tanH, e1, e2]
  have f1 : Rgbd.fwd 14 x = x := by unfold Rgbd.fwd; rw [if_neg (by omega)]
  have f2 : Rgbd.fwd 14 y = y := by unfold Rgbd.fwd; rw [if_neg (by omega)]
  rw [f1, f2, vertexA (by omega) (by omega) hd h0, vertexA (by omega) (by omega) hd1 h1, vertexA (by omega) (by omega) hd2 h2]
  rw [← hv]
  push_cast
  rfl

/-- The sampled points of the first frame and their normals. -/
theorem corner0 (o : Odom ℝ) :
    ((worldValue (sysA o) inA 0 0 P0A (0, 6) .points = ⟨0, -1, 0⟩ ∧ worldValue (sysA o) inA 0 0 P0A (0, 6) .normals = ⟨1, 0, 0⟩) ∧
    (worldValue (sysA o) inA 0 0 P0A (12, 6) .points = ⟨0, 1, 0⟩ ∧ worldValue (sysA o) inA 0 0 P0A (12, 6) .normals = ⟨1, 0, 0⟩)) ∧
    ((worldValue (sysA o) inA 0 0 P0A (4, 4) .points = ⟨0, 0, 1⟩ ∧ worldValue (sysA o) inA 0 0 P0A (4, 4) .normals = ⟨0, 1, 0⟩) ∧
    (worldValue (sysA o) inA 0 0 P0A (12, 12) .points = ⟨0, 0, -1⟩ ∧ worldValue (sysA o) inA 0 0 P0A (12, 12) .normals = ⟨0, 1, 0⟩)) ∧
    ((worldValue (sysA o) inA 0 0 P0A (6, 0) .points = ⟨-1, 0, 0⟩ ∧ worldValue (sysA o) inA 0 0 P0A (6, 0) .normals = ⟨0, 0, 1⟩) ∧
    (worldValue (sysA o) inA 0 0 P0A (6, 12) .points = ⟨1, 0, 0⟩ ∧ worldValue (sysA o) inA 0 0 P0A (6, 12) .normals = ⟨0, 0, 1⟩)) := by
  have pt : ∀ {y x : Nat} {d : ℚ} {v : V3 ℝ}, y < 14 → x < 14 → depthQ 0 y x = d → 0 < d → v = ⟨d * (x / 12) - 1, d * (y / 12) - 1, d - 2⟩ →
      worldValue (sysA o) inA 0 0 P0A (y, x) .points = v := by
    intro y x d v hy hx hd h0 hv
    show (M3.one.mulVec (Rgbd.vertexAt (1 / 10 ^ 6) inA 0 0 y x)).add _ = _
    rw [vertexA hy hx hd h0, hv, M3.one_mulVec]
    ext <;> simp [V3.add, P0A] <;> ring
  have no : ∀ {y x : Nat} {e : V3 ℝ}, Rgbd.normalAt Rgbd.nrmR (1 / 10 ^ 6) inA 0 0 y x = e → worldValue (sysA o) inA 0 0 P0A (y, x) .normals = e := by
    intro y x e h
    show M3.one.mulVec (Rgbd.normalAt Rgbd.nrmR (1 / 10 ^ 6) inA 0 0 y x) = e
    rw [h, M3.one_mulVec]
  refine ⟨⟨⟨pt (d := 2) (by norm_num) (by norm_num) rfl (by norm_num) (by norm_num), no ?_⟩, pt (d := 2) (by norm_num) (by norm_num) rfl (by norm_num) (by norm_num), no ?_⟩,
    ⟨⟨pt (d := 3) (by norm_num) (by norm_num) rfl (by norm_num) (by norm_num), no ?_⟩, pt (d := 1) (by norm_num) (by norm_num) rfl (by norm_num) (by norm_num), no ?_⟩,
    ⟨pt (d := 2) (by norm_num) (by norm_num) rfl (by norm_num) (by norm_num), no ?_⟩, pt (d := 2) (by norm_num) (by norm_num) rfl (by norm_num) (by norm_num), no ?_⟩
  · exact normalA (d := 2) (d1 := 12 / 7) (d2 := 2) (c := 1 / 21) (by norm_num) (by norm_num) rfl rfl rfl (by norm_num) (by norm_num) (by norm_num) (by norm_num) _
      (by norm_num [V3.dot]) (by ext <;> norm_num [V3.cross, V3.sub, V3.smul])
  · exact normalA (d := 2) (d1 := 12 / 7) (d2 := 2) (c := 1 / 21) (by norm_num) (by norm_num) rfl rfl rfl (by norm_num) (by norm_num) (by norm_num) (by norm_num) _
      (by norm_num [V3.dot]) (by ext <;> norm_num [V3.cross, V3.sub, V3.smul])
  · exact normalA (d := 3) (d1 := 3) (d2 := 12 / 5) (c := 3 / 20) (by norm_num) (by norm_num) rfl rfl rfl (by norm_num) (by norm_num) (by norm_num) (by norm_num) _
      (by norm_num [V3.dot]) (by ext <;> norm_num [V3.cross, V3.sub, V3.smul])
  · exact normalA (d := 1) (d1 := 1) (d2 := 12 / 13) (c := 1 / 156) (by norm_num) (by norm_num) rfl rfl rfl (by norm_num) (by norm_num) (by norm_num) (by norm_num) _
      (by norm_num [V3.dot]) (by ext <;> norm_num [V3.cross, V3.sub, V3.smul])
  · exact normalA (d := 2) (d1 := 2) (d2 := 2) (c := 1 / 36) (by norm_num) (by norm_num) rfl rfl rfl (by norm_num) (by norm_num) (by norm_num) (by norm_num) _
      (by norm_num [V3.dot]) (by ext <;> norm_num [V3.cross, V3.sub, V3.smul])
  · exact normalA (d := 2) (d1 := 2) (d2 := 2) (c := 1 / 36) (by norm_num) (by norm_num) rfl rfl rfl (by norm_num) (by norm_num) (by norm_num) (by norm_num) _
      (by norm_num [V3.dot]) (by ext <;> norm_num [V3.cross, V3.sub, V3.smul])

/-- A sampled point of the second frame. -/
theorem corner1 (o : Odom ℝ) {y x : Nat} {d : ℚ} (hy : y < 14) (hx : x < 14) (hd : depthQ 1 y x = d) (h0 : 0 < d) :
    worldValue (sysA o) inA 0 1 P1A (y, x) .points =
      ⟨cosQ * (d * (x / 12) - 1) - sinQ * (d * (y / 12) - 1) + 2 * hq, sinQ * (d * (x / 12) - 1) + cosQ * (d * (y / 12) - 1), d - 2⟩ := by
  show Icp.act (G0.mul P0A) (Rgbd.vertexAt (1 / 10 ^ 6) inA 0 1 y x) = _
  rw [Icp.act_mul ⟨rfl, rfl⟩, vertexA hy hx hd h0]
  ext <;> simp [Icp.act, G0, P0A, M3.one, M3.mulVec, V3.dot, V3.add, h, hq, cosQ, sinQ] <;> ring

theorem revisitsA (o : Odom ℝ) : Revisits (sysA o) inA 0 P0A P1A id 1 (1 / 2) (1 / 4) (1 / 10 ^ 10) (1 / 1000) := by
  obtain ⟨⟨⟨a1, a2⟩, b1, b2⟩, ⟨⟨c1, c2⟩, d1, d2⟩, ⟨e1, e2⟩, f1, f2⟩ := corner0 o
  have A := corner1 o (y := 0) (x := 6) (d := 12 * (cosQ - sinQ - 2 * hq) / (cosQ * 6)) (by norm_num) (by norm_num) rfl (by norm_num [cosQ, sinQ, hq])
  have B := corner1 o (y := 12) (x := 6) (d := 12 * (cosQ - sinQ - 2 * hq) / (cosQ * 6 - sinQ * 12)) (by norm_num) (by norm_num) rfl (by norm_num [cosQ, sinQ, hq])
  have C := corner1 o (y := 4) (x := 4) (d := 12 * (sinQ + cosQ) / (sinQ * 4 + cosQ * 4)) (by norm_num) (by norm_num) rfl (by norm_num [cosQ, sinQ, hq])
  have D := corner1 o (y := 12) (x := 12) (d := 12 * (sinQ + cosQ) / (sinQ * 12 + cosQ * 12)) (by norm_num) (by norm_num) rfl (by norm_num [cosQ, sinQ, hq])
  have E := corner1 o (y := 6) (x := 0) (d := 2 + 1 / 10 ^ 10) (by norm_num) (by norm_num) rfl (by norm_num [cosQ, sinQ, hq])
  have F := corner1 o (y := 6) (x := 12) (d := 2) (by norm_num) (by norm_num) rfl (by norm_num [cosQ, sinQ, hq])
  constructor
  · rw [grid1]; simp
  · rw [grid0, grid1]; exact fun x hx => hx
  · rw [grid1]
    intro x hx
    simp only [List.mem_cons, List.not_mem_nil, or_false] at hx
    rcases hx with rfl | rfl | rfl | rfl | rfl | rfl <;> simp only [id, a1, a2, b1, b2, c1, c2, d1, d2, e1, e2, f1, f2, A, B, C, D, E, F] <;>
      exact abs_le.2 (by norm_num [V3.dot, V3.sub, cosQ, sinQ, hq])
  · rw [grid1]
    intro x hx
    simp only [List.mem_cons, List.not_mem_nil, or_false] at hx
    rcases hx with rfl | rfl | rfl | rfl | rfl | rfl <;> simp only [id, a1, a2, b1, b2, c1, c2, d1, d2, e1, e2, f1, f2, A, B, C, D, E, F] <;>
      exact le_of_normSq (by norm_num) (by norm_num [V3.normSq, V3.dot, V3.sub, cosQ, sinQ, hq])
  · rw [grid1]
    intro x hx
    simp only [List.mem_cons, List.not_mem_nil, or_false] at hx
    rcases hx with rfl | rfl | rfl | rfl | rfl | rfl <;> simp only [id, a1, b1, c1, d1, e1, f1] <;>
      exact le_of_normSq (by norm_num) (by norm_num [V3.normSq, V3.dot])
  · rw [grid0]
    intro x hx y hy hxy
    refine ge_of_normSq (by norm_num) ?_
    simp only [List.mem_cons, List.not_mem_nil, or_false] at hx hy
    rcases hx with rfl | rfl | rfl | rfl | rfl | rfl <;> rcases hy with rfl | rfl | rfl | rfl | rfl | rfl <;> first
      | exact absurd rfl hxy
      | (simp only [a1, b1, c1, d1, e1, f1]; norm_num [V3.normSq, V3.dot, V3.sub])
  · rw [grid1]
    intro v w
    simp [a1, a2, b1, b2, c1, c2, d1, d2, e1, e2, f1, f2, V3.dot, V3.add, V3.cross, V3.normSq]
    nlinarith [sq_nonneg v.x, sq_nonneg v.y, sq_nonneg v.z, sq_nonneg w.x, sq_nonneg w.y, sq_nonneg w.z]

theorem P0A_rigid : P0A.Rigid := by
  refine ⟨⟨rfl, rfl⟩, ?_, ?_⟩ <;> ext <;> simp [P0A, M3.mul, M3.transpose, M3.one, V3.dot, M3.c0, M3.c1, M3.c2]

theorem withinA : Within P0A P1A (1 / 2 ^ 15) := by
  intro p
  have e : (P1A.R.mulVec p).add P1A.t = Icp.act G0 (Icp.act P0A p) := Icp.act_mul P0A_rigid.1 p
  rw [e]
  show vnorm ((Icp.act P0A p).sub _) ≤ _
  generalize Icp.act P0A p = u
  have h1 := G0_moves u
  have h2 : vnorm (u.sub (Icp.act G0 u)) = vnorm ((Icp.act G0 u).sub u) := by
    simp only [vnorm, V3.sub]; congr 1; ring
  have h3 : vnorm u ≤ vnorm (u.sub (Icp.act G0 u)) + vnorm (Icp.act G0 u) := by
    have := Icp.vnorm_add_le (u.sub (Icp.act G0 u)) (Icp.act G0 u)
    have e : (u.sub (Icp.act G0 u)).add (Icp.act G0 u) = u := by ext <;> simp [V3.sub, V3.add]
    rwa [e] at this
  rw [h2] at h3 ⊢
  have := vnorm_nonneg (Icp.act G0 u)
  linarith

theorem tunedA (odom : String) : Tuned paramsA odom (1 / 10 ^ 6) 1 (1 / 2) (1 / 4) (1 / 10 ^ 10) (1 / 1000) (1 / 2 ^ 15) (1 / 10 ^ 6) 6 where
  iters := by show (1 : Int) ≤ 10; norm_num
  damp0 := by show (0 : ℝ) < 1 / 10 ^ 8; norm_num
  damp := by
    have e : (if odom = "icp" then (2 : ℝ) else paramsA.lambdaMax) = 2 := by split_ifs <;> rfl
    rw [e]
    show (2 : ℝ) ^ (10 : Int).toNat * (1 / 10 ^ 8) ≤ _
    rw [ten]; norm_num
  grad := fun _ => by
    have w := weight
    refine ⟨?_, ?_, ?_, ?_⟩
    · show (1 : ℝ) < 2; norm_num
    · show (0 : ℝ) < 1; norm_num
    · show (0 : ℝ) < 200; norm_num
    · show (1 : ℝ) / 4 / 8 ≤ Icp.stepWeight 1 200 (-70); linarith
  thr := by rintro t ⟨rfl⟩; norm_num
  rho := by norm_num
  sig := by norm_num
  eta0 := by norm_num
  eta := by norm_num
  pos := by norm_num
  le1 := by norm_num
  basin := Icp.ConvergeWitness.basin

/-- The hypotheses of C96 are met by `ICPSLAM` with both registrations. -/
theorem accuracy_hypotheses {odom : String} (hodom : odom ∈ ["icp", "gradicp"]) :
    ∃ o, Made Icp.bruteNN (1 / 10 ^ 6) (1 / 10 ^ 6) Rgbd.nrmR paramsA odom (sysA o) ∧ odom ≠ "gt" ∧ SeqOk (sysA o) seqA inA ∧ SmallSeq (sysA o) inA ∧ inA.L = 2 ∧
      (∀ b < inA.B, (firstPose seqA b).Rigid ∧ P1A.Rigid ∧ Within (firstPose seqA b) P1A (1 / 2 ^ 15)) ∧
      (∀ b < inA.B, ∀ x ∈ depthPixels inA b 0, Reprojects (sysA o) inA b x.1 x.2) ∧
      ∀ b < inA.B, 6 ≤ (gridPixels (sysA o) inA b 1).length ∧ Revisits (sysA o) inA b (firstPose seqA b) P1A id 1 (1 / 2) (1 / 4) (1 / 10 ^ 10) (1 / 1000) := by
  have h3 : odom ∈ ["gt", "icp", "gradicp"] := List.mem_cons_of_mem _ hodom
  obtain ⟨S, hS⟩ := ((odometry_names Icp.bruteNN (1 / 10 ^ 6) (1 / 10 ^ 6) Rgbd.nrmR (fun _ => 1) (fun _ _ => 1) paramsA odom 1 1 1).2 h3).1
  rw [icpSlam] at hS
  cases ho : odomOf Icp.bruteNN (1 / 10 ^ 6) paramsA odom with
  | error e => rw [ho] at hS; cases hS
  | ok o =>
    refine ⟨o, .inl (by rw [icpSlam, ho]; rfl), by rintro rfl; simp at hodom, ?_, .inl rfl, rfl, fun b hb => ⟨P0A_rigid, G0_rigid.mul P0A_rigid, withinA⟩,
      fun b hb x hx => ?_, fun b hb => ?_⟩
    · exact seqOk_of_hist (S := sysA o) (Rgbd.Hist.new seqA_new) (.inl rfl) (by show 0 < 1; norm_num) (by show 2 ≤ 14; norm_num) (by show 2 ≤ 14; norm_num)
    · obtain ⟨h1, h2, h3⟩ := (mem_depthPixels inA b 0 x).1 hx
      refine reprojects_pinhole (fx := 12 - 1 / 10 ^ 6) (fy := 12 - 1 / 10 ^ 6) (cx := 0) (cy := 0) h2 h1 rfl (Rgbd.default_pixels seqA_new b 0 x.1 x.2 h1 h2) h3 ?_ ?_ ?_ ?_ ?_
      · show (0 : ℝ) ≤ 1 / 10 ^ 6; norm_num
      · norm_num
      · norm_num
      · have a1 : ((x.2 : Nat) : ℝ) < 14 := by exact_mod_cast h2
        show (1 / 10 ^ 6 : ℝ) * _ < _
        rw [sub_zero, abs_of_nonneg (Nat.cast_nonneg _)]
        linarith
      · have a1 : ((x.1 : Nat) : ℝ) < 14 := by exact_mod_cast h1
        show (1 / 10 ^ 6 : ℝ) * _ < _
        rw [sub_zero, abs_of_nonneg (Nat.cast_nonneg _)]
        linarith
    · obtain rfl : b = 0 := by have : b < 1 := hb; omega
      exact ⟨by rw [grid1]; simp, revisitsA o⟩

/-- C96 in the corner: the camera has moved by more than `10⁻⁵`, and the recovered pose is right up to `2·10⁻⁶`. -/
theorem accuracy_corner {odom : String} (hodom : odom ∈ ["icp", "gradicp"]) :
    ∃ o mp R, Made Icp.bruteNN (1 / 10 ^ 6) (1 / 10 ^ 6) Rgbd.nrmR paramsA odom (sysA o) ∧ forward (sysA o) seqA = .ok (mp, R) ∧ R.at' 0 0 = P0A ∧
      Within (R.at' 0 1) P1A (2 / 10 ^ 6) ∧ ¬ Within P0A P1A (1 / 10 ^ 5) := by
  obtain ⟨o, h1, h2, h3, h4, h5, h6, h7, h8⟩ := accuracy_hypotheses hodom
  obtain ⟨k1, k2⟩ := second_frame_accuracy Icp.bruteNN_nearest h1 h2 (fun b hb => (h6 b hb).1) h7 (tunedA odom) (Pt := fun _ => P1A) (fun b hb => (h6 b hb).2.1)
    (fun b hb => (h6 b hb).2.2) (m := fun _ => id) h8 (by show (0 : Int) < 2; norm_num) h4 h3 h5.ge
  obtain ⟨mp, R, e⟩ := k2 h5
  obtain ⟨g1, g2⟩ := k1 mp R e 0 (by show 0 < 1; norm_num)
  refine ⟨o, mp, R, h1, e, g1, ?_, fun hw => ?_⟩
  · have ea : accuracy paramsA odom (1 / 4) (1 / 2 ^ 15) (1 / 10 ^ 6) = 2 / 10 ^ 6 := by
      rw [accuracy, rate]
      split_ifs
      · exact icp_bound
      · exact grad_bound
    rwa [ea] at g2
  · have := hw ⟨1, 1, 2⟩
    have e1 : (P0A.R.mulVec ⟨1, 1, 2⟩).add P0A.t = V3.zero := by ext <;> simp [P0A, M3.one, M3.mulVec, V3.dot, V3.add, V3.zero]
    have e2 : (P1A.R.mulVec ⟨1, 1, 2⟩).add P1A.t = ⟨2 * h, 0, 0⟩ := by
      show Icp.act (G0.mul P0A) _ = _
      rw [Icp.act_mul P0A_rigid.1, show Icp.act P0A ⟨1, 1, 2⟩ = V3.zero from e1]
      ext <;> simp [Icp.act, G0, M3.mulVec, V3.dot, V3.add, V3.zero]
    have e3 : vnorm (V3.zero.sub ⟨2 * h, 0, 0⟩ : V3 ℝ) = 1 / 2 ^ 16 :=
      Icp.ConvergeWitness.vnorm_of_sq (by positivity) (by simp [V3.normSq, V3.dot, V3.sub, V3.zero, h]; norm_num)
    have e4 : vnorm (⟨2 * h, 0, 0⟩ : V3 ℝ) = 1 / 2 ^ 16 :=
      Icp.ConvergeWitness.vnorm_of_sq (by positivity) (by simp [V3.normSq, V3.dot, h]; norm_num)
    rw [e1, e2, e3, e4] at this
    norm_num at this

end Verif.Slam
